import Verif.Proofs.LoopInv
import Verif.Proofs.Shared
import Verif.Spec.Convex
/-
The wavefront of a convex contour.
-/
namespace Polyskel
open Scalar Real
set_option linter.unusedSectionVars false

theorem unitDir_add {s t : ℝ} (h : unitDir s = unitDir t) (u : ℝ) :
    unitDir (s + u) = unitDir (t + u) := by
  simp only [unitDir, V2.mk.injEq] at h ⊢
  simp only [cos_add, sin_add, h.1, h.2, and_self]

theorem unitDir_ne {p θ : ℝ} (h0 : 0 < θ) (h1 : θ < 2 * π) : unitDir p ≠ unitDir (p + θ) := by
  intro h
  simp only [unitDir, V2.mk.injEq] at h
  have hc : cos θ = 1 := by
    have := cos_sub (p + θ) p
    rw [show p + θ - p = θ by ring, ← h.1, ← h.2] at this
    rw [this]
    linarith [sin_sq_add_cos_sq p]
  have := (cos_eq_one_iff_of_lt_of_lt (by linarith) h1).1 hc
  linarith

/-- the cross product of the bisectors of two neighbours -/
theorem bisector_cross {p a b : ℝ} {q : ℝ} (hq : unitDir (p + a) = unitDir q) :
    (cos (q + b) - cos q) * (sin (p + a) - sin p) - (sin (q + b) - sin q) * (cos (p + a) - cos p) =
      -4 * sin (a / 2) * sin (b / 2) * sin ((a + b) / 2) := by
  have h2 := unitDir_add hq b
  simp only [unitDir, V2.mk.injEq] at hq h2
  rw [← h2.1, ← h2.2, ← hq.1, ← hq.2]
  obtain ⟨A, rfl⟩ : ∃ A, a = 2 * A := ⟨a / 2, by ring⟩
  obtain ⟨B, rfl⟩ : ∃ B, b = 2 * B := ⟨b / 2, by ring⟩
  obtain ⟨m, rfl⟩ : ∃ m, p = m - 2 * A := ⟨p + 2 * A, by ring⟩
  have e1 : m - 2 * A + 2 * A = m := by ring
  have e2 : 2 * A / 2 = A := by ring
  have e3 : 2 * B / 2 = B := by ring
  have e4 : (2 * A + 2 * B) / 2 = A + B := by ring
  rw [e1, e2, e3, e4, cos_add m, sin_add m, cos_sub m, sin_sub m, sin_add A, cos_two_mul, cos_two_mul,
    sin_two_mul, sin_two_mul]
  have h1 := sin_sq_add_cos_sq m
  have h2 := sin_sq_add_cos_sq A
  have h3 := sin_sq_add_cos_sq B
  have hm : cos m ^ 2 = 1 - sin m ^ 2 := by linarith
  have hA : cos A ^ 2 = 1 - sin A ^ 2 := by linarith
  have hB : cos B ^ 2 = 1 - sin B ^ 2 := by linarith
  rw [hA, hB]
  linear_combination (-4 * sin A * sin B * (sin A * cos B + cos A * sin B)) * h1

/-- normalising does not change the sign of the cross product -/
theorem cross_normalized (a b : V2 ℝ) :
    ∃ k : ℝ, 0 ≤ k ∧ V2.cross (V2.normalized a) (V2.normalized b) = k * (a.x * b.y - a.y * b.x) := by
  unfold V2.normalized
  split
  · split
    · refine ⟨(1 / √(V2.dot a a)) * (1 / √(V2.dot b b)), by positivity, ?_⟩
      simp [V2.cross]
      ring
    · exact ⟨0, le_refl _, by simp [V2.cross]⟩
  · exact ⟨0, le_refl _, by simp [V2.cross]⟩

/-- the vertex turns left by `t`, and its bisector is made accordingly -/
structure TurnsBy (c : Core ℝ) (t : ℝ) : Prop where
  convex : c.reflex = false
  nonneg : 0 ≤ t
  dir : ∃ p, c.edgePrev.norm = unitDir p ∧ c.edgeNext.norm = unitDir (p + t)
  bis : c.bisector.v = V2.sub c.edgeNext.norm c.edgePrev.norm

theorem TurnsBy.cross_le {a b : Core ℝ} {s t : ℝ} (ha : TurnsBy a s) (hb : TurnsBy b t)
    (hab : a.edgeNext = b.edgePrev) (hst : s + t ≤ 2 * π) :
    V2.cross (V2.normalized b.bisector.v) (V2.normalized a.bisector.v) ≤ 0 := by
  obtain ⟨k, hk, he⟩ := cross_normalized b.bisector.v a.bisector.v
  obtain ⟨p, hp1, hp2⟩ := ha.dir
  obtain ⟨q, hq1, hq2⟩ := hb.dir
  have hpq : unitDir (p + s) = unitDir q := by rw [← hp2, ← hq1, hab]
  have hc := bisector_cross (b := t) hpq
  rw [he, ha.bis, hb.bis, hp1, hp2, hq1, hq2]
  simp only [unitDir, V2.sub, ex_sub, ex_rnd]
  rw [hc]
  have h1 : 0 ≤ sin (s / 2) := sin_nonneg_of_nonneg_of_le_pi (by linarith [ha.nonneg])
    (by linarith [hb.nonneg])
  have h2 : 0 ≤ sin (t / 2) := sin_nonneg_of_nonneg_of_le_pi (by linarith [hb.nonneg])
    (by linarith [ha.nonneg])
  have h3 : 0 ≤ sin ((s + t) / 2) := sin_nonneg_of_nonneg_of_le_pi
    (by linarith [ha.nonneg, hb.nonneg]) (by linarith)
  have := mul_nonneg hk (mul_nonneg (mul_nonneg h1 h2) h3)
  nlinarith

theorem unify_turnsBy {va vb : Vtx ℝ} {s t : ℝ} (ha : TurnsBy va.core s)
    (hb : TurnsBy vb.core t) (hab : va.edgeNext = vb.edgePrev) (hst : s + t ≤ 2 * π) (pt : V2 ℝ) :
    TurnsBy (unifyCore va vb pt) (s + t) := by
  have hc := ha.cross_le hb hab hst
  have hr : (unifyCore va vb pt).reflex = false := by
    show (fzero <. V2.cross (V2.normalized vb.bisector.v) (V2.normalized va.bisector.v)) = false
    rw [ex_lt_false, ex_zero]
    exact hc
  obtain ⟨p, hp1, hp2⟩ := ha.dir
  obtain ⟨q, hq1, hq2⟩ := hb.dir
  have hpq : unitDir (p + s) = unitDir q := by
    rw [← hp2, ← hq1]
    exact congrArg Edge2.norm hab
  refine ⟨hr, add_nonneg ha.nonneg hb.nonneg, ⟨p, hp1, ?_⟩, ?_⟩
  · show vb.edgeNext.norm = _
    rw [show vb.edgeNext.norm = unitDir (q + t) from hq2, ← unitDir_add hpq t]
    congr 1; ring
  · have hr' : (mkVtx 0 pt va.edgePrev vb.edgeNext
      (some (V2.normalized vb.bisector.v, V2.normalized va.bisector.v)) false).reflex = false := hr
    show (Ray2 pt (V2.smul _ (if (mkVtx 0 pt va.edgePrev vb.edgeNext
      (some (V2.normalized vb.bisector.v, V2.normalized va.bisector.v)) false).reflex = true
        then _ else _))).v = _
    rw [hr']
    simp [Ray2, V2.smul, V2.add, V2.sub, unifyCore, mkVtx, Vtx.core]
    constructor <;> ring

theorem corner_turnsBy {e : Edge2 ℝ × Edge2 ℝ} {p t : ℝ} (h0 : 0 ≤ t) (hpi : t ≤ π)
    (h1 : e.1.norm = unitDir p) (h2 : e.2.norm = unitDir (p + t)) : TurnsBy (cornerCore e) t := by
  have hr : (mkVtx 0 e.2.p1 e.1 e.2 none false).reflex = false := by
    show (fzero <. V2.cross (V2.smul e.1.norm (lit (-1) 1)) e.2.norm) = false
    rw [ex_lt_false, h1, h2]
    have := sin_nonneg_of_nonneg_of_le_pi h0 hpi
    have h3 : sin t = sin (p + t) * cos p - cos (p + t) * sin p := by
      rw [← sin_sub]
      congr 1; ring
    simp [V2.cross, V2.smul, unitDir]
    linarith
  refine ⟨hr, h0, ⟨p, h1, h2⟩, ?_⟩
  show (Ray2 e.2.p1 (V2.smul _ (if (mkVtx 0 e.2.p1 e.1 e.2 none false).reflex = true
        then _ else _))).v = _
  rw [hr]
  simp [Ray2, V2.smul, V2.add, V2.sub, cornerCore, mkVtx, Vtx.core]
  constructor <;> ring

/-- the vertices of the wavefront turn left, by one full turn at most in each loop -/
structure ConvexWave (st : St ℝ) (R : Nat → List Nat) (t : Nat → ℝ) : Prop where
  turn : ∀ l ∈ st.slav, ∀ k ∈ R l, ∀ c, st.co k = some c → TurnsBy c (t k)
  total : ∀ l ∈ st.slav, ((R l).map t).sum ≤ 2 * π

theorem ConvexWave.two {st : St ℝ} {R : Nat → List Nat} {t : Nat → ℝ} (h : Loops st R)
    (hc : ConvexWave st R t) {l a b : Nat} {P : List Nat} (hl : l ∈ st.slav)
    (hp : (a :: b :: P).Perm (R l)) : t a + t b + (P.map t).sum ≤ 2 * π ∧ t a + t b ≤ 2 * π := by
  have h1 := hc.total l hl
  have h2 : ((R l).map t).sum = t a + t b + (P.map t).sum := by
    rw [← (hp.map t).sum_eq]
    simp [add_assoc]
  have h3 : 0 ≤ (P.map t).sum := by
    apply List.sum_nonneg
    intro x hx
    obtain ⟨k, hk, rfl⟩ := List.mem_map.1 hx
    have hkR : k ∈ R l := hp.mem_iff.1 (by simp [hk])
    obtain ⟨v, hv⟩ := getElem?_of_lt ((h.closed l hl).lt k hkR)
    exact (hc.turn l hl k hkR _ (vs_fields hv).2.2.2.2).nonneg
  constructor <;> linarith

/-- the new wavefront after two vertices have become one -/
theorem ConvexWave.unified {st st' : St ℝ} {R : Nat → List Nat} {t : Nat → ℝ} (h : Loops st R)
    (hc : ConvexWave st R t) {l a b : Nat} {P : List Nat} {c : Core ℝ} (hl : l ∈ st.slav)
    (hperm : (a :: b :: P).Perm (R l)) (hlt : TurnsBy c (t a + t b)) (sl : st'.slav = st.slav)
    (co : ∀ k, st'.co k = if k = st.vs.length then some c else st.co k) :
    ConvexWave st' (fun l' => if l' = l then st.vs.length :: P else R l')
      (fun k => if k = st.vs.length then t a + t b else t k) := by
  have hne : ∀ l' ∈ st.slav, ∀ k ∈ R l', k ≠ st.vs.length := by
    intro l' hl' k hk
    have := (h.closed l' hl').lt k hk
    omega
  have hmap : ∀ L : List Nat, (∀ k ∈ L, k ≠ st.vs.length) →
      L.map (fun k => if k = st.vs.length then t a + t b else t k) = L.map t := by
    intro L hL
    apply List.map_congr_left
    intro k hk
    simp [hL k hk]
  constructor
  · intro l' hl' k hk c' hc'
    rw [sl] at hl'
    rw [co] at hc'
    by_cases hkN : k = st.vs.length
    · rw [if_pos hkN] at hc'
      simp only [Option.some.injEq] at hc'
      subst hc'
      simp only [if_pos hkN]
      exact hlt
    · rw [if_neg hkN] at hc'
      simp only [if_neg hkN]
      refine hc.turn l' hl' k ?_ c' hc'
      by_cases heq : l' = l
      · subst heq
        simp only [if_true] at hk
        rcases List.mem_cons.1 hk with hk | hk
        · exact absurd hk hkN
        · exact hperm.mem_iff.1 (by simp [hk])
      · simpa only [if_neg heq] using hk
  · intro l' hl'
    rw [sl] at hl'
    by_cases heq : l' = l
    · subst heq
      simp only [if_true]
      rw [List.map_cons, List.sum_cons, hmap P (fun k hk => hne l' hl k
        (hperm.mem_iff.1 (by simp [hk])))]
      simp only [if_true]
      exact (hc.two h hl hperm).1
    · simp only [if_neg heq]
      rw [hmap _ (hne l' hl')]
      exact hc.total l' hl'

theorem ConvexWave.peaked {st st' : St ℝ} {R : Nat → List Nat} {t : Nat → ℝ}
    (hc : ConvexWave st R t) {l : Nat} (sl : st'.slav = st.slav.erase l)
    (co : st'.co = st.co) : ConvexWave st' R t := by
  constructor
  · intro l' hl' k hk c' hc'
    rw [co] at hc'
    rw [sl] at hl'
    exact hc.turn l' (List.mem_of_mem_erase hl') k hk c' hc'
  · intro l' hl'
    rw [sl] at hl'
    exact hc.total l' (List.mem_of_mem_erase hl')

/-- an edge event of two neighbours keeps a convex wavefront convex -/
theorem handleEdge_convex {st : St ℝ} {R : Nat → List Nat} {t : Nat → ℝ} (h : Loops st R)
    (hc : ConvexWave st R t) (hsh : SharedEdges st) {ev : EdgeEv ℝ} {va vb : Vtx ℝ}
    (hva : st.vs[ev.a]? = some va) (hvb : st.vs[ev.b]? = some vb) (ha : va.valid = true)
    (hlk : Link st ev.a ev.b) {l : Nat} (hl : l ∈ st.slav) (hm : ev.a ∈ R l) :
    V2.cross (V2.normalized vb.bisector.v) (V2.normalized va.bisector.v) ≤ 0 ∧
    ∃ st' a es R' t', handleEdge st ev = .ok (st', [a], es) ∧ Loops st' R' ∧
      ConvexWave st' R' t' ∧
      ((st'.slav = st.slav.erase l ∧ (R l).length = 3) ∨
        (st'.slav = st.slav ∧ (R' l).length + 1 = (R l).length)) := by
  obtain ⟨hna, hpa, hla, hda, hca⟩ := vs_fields hva
  obtain ⟨hnb, hpb, hlb, hdb, hcb⟩ := vs_fields hvb
  have hcl := h.closed l hl
  have hnab : va.next = ev.b := by
    have := (link_iff.1 hlk).1
    rw [hna] at this
    simpa using this
  have hab : va.edgeNext = vb.edgePrev := hsh ev.a va vb hva ha (by rw [hnab]; exact hvb)
  have hbm : ev.b ∈ R l := (hcl.nx_mem hm (link_iff.1 hlk).1).1
  have hta := hc.turn l hl _ hm _ hca
  have htb := hc.turn l hl _ hbm _ hcb
  obtain ⟨P0, -, -, -, hperm0, -⟩ := h.pair hl hm (link_iff.1 hlk).1
  have hst := (hc.two h hl hperm0).2
  have hcr := hta.cross_le htb hab hst
  rw [show vb.core.bisector = vb.bisector from rfl, show va.core.bisector = va.bisector from rfl]
    at hcr
  refine ⟨hcr, ?_⟩
  by_cases hpk : va.prev = vb.next
  · obtain ⟨st', sinks, e, hL, h3, -, sl, -, c, -⟩ :=
      handleEdge_peak h hl hm (link_iff.1 hlk).1 hva hvb hpk
    exact ⟨st', _, _, R, t, e, hL, hc.peaked sl c, Or.inl ⟨sl, h3⟩⟩
  · obtain ⟨st', es, P, e, hperm, hL, sl, len, -, -, -, -, -, c⟩ :=
      handleEdge_unify h hl hm (link_iff.1 hlk).1 hva hvb hpk
    refine ⟨st', _, _, _, _, e, hL, hc.unified h hl hperm (unify_turnsBy hta htb hab hst _) sl c,
      Or.inr ⟨sl, ?_⟩⟩
    have := hperm.length_eq
    simp only [if_true, List.length_cons] at this ⊢
    omega

end Polyskel
