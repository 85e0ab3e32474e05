import Verif.Proofs.ConvexWave
import Verif.Props.Dormers
/-
Runs on convex contours.
-/
namespace Polyskel
open Scalar Real
set_option linter.unusedSectionVars false

/-- the invariant: `n` is the number of edges of the contour, `es` are the events of the batch
that are still to be handled -/
structure ConvexRun (n : Nat) (lp : Loop ℝ) (es : List (Event ℝ)) : Prop where
  tight : Tight lp.st (es ++ lp.queue)
  shared : SharedEdges lp.st
  edges : ∀ e ∈ es ++ lp.queue, ∃ e', e = .edge e'
  wave : ∃ R t, Loops lp.st R ∧ ConvexWave lp.st R t ∧ lp.out.length + 2 ≤ n ∧
    ∀ l ∈ lp.st.slav, lp.st.slav = [l] ∧ lp.out.length + (R l).length ≤ n

/-- a convex wavefront proposes edge events only -/
theorem ConvexWave.nextEvent {st : St ℝ} {R : Nat → List Nat} {t : Nat → ℝ} (h : Loops st R)
    (hc : ConvexWave st R t) {id : Nat} {e : Event ℝ} (he : nextEvent st id = .ok (some e)) :
    ∃ e', e = .edge e' := by
  obtain ⟨v, p, n, hv, -, -, hcase⟩ := nextEvent_mem he
  rcases hcase with hm | ⟨e', -, hr, hl, -⟩
  · rcases mem_edgesOf hm with ⟨_, _, rfl⟩ | ⟨_, _, rfl⟩ <;> exact ⟨_, rfl⟩
  · exfalso
    obtain ⟨-, -, f3, f4, f5⟩ := vs_fields hv
    have hvd : st.vd id = some true := by
      cases hd : v.valid with
      | true => rw [f4, hd]
      | false =>
        have := h.invalid id (by rw [f4, hd])
        rw [f3] at this
        simp only [Option.some.injEq] at this
        exact absurd this hl
    obtain ⟨l, hls, hlv⟩ := (h.valid id).1 hvd
    have := (hc.turn l hls id ((h.mem l hls id).2 hlv) _ f5).convex
    rw [show v.core.reflex = v.reflex from rfl, hr] at this
    cases this

theorem stepEvent_convex {n : Nat} {lp : Loop ℝ} {e : Event ℝ} {es : List (Event ℝ)}
    (h : ConvexRun n lp (e :: es)) :
    ((∃ e', e = .edge e') ∧ Apt lp.st e ∧ ¬ Birth lp.st e) ∧
    ∃ lp', stepEvent lp e = .ok lp' ∧ ConvexRun n lp' es := by
  obtain ⟨e', rfl⟩ := h.edges e (by simp)
  have hap : Apt lp.st (.edge e') := h.tight.2 e' (by simp)
  obtain ⟨R, t, hL, hc, hout, hone⟩ := h.wave
  have hsub : ∀ x ∈ es ++ lp.queue, ∃ e', x = .edge e' := fun x hx =>
    h.edges x (by simp only [List.cons_append, List.mem_cons]; exact Or.inr hx)
  have hnb : ¬ Birth lp.st (.edge e') := by
    rintro ⟨e2, va, vb, heq, hva, hvb, h1, h2, -, -, -, hcr⟩
    simp only [Event.edge.injEq] at heq
    subst heq
    obtain ⟨l, hl, -, hm⟩ := hL.lavOf hva h1
    have := (handleEdge_convex hL hc h.shared hva hvb h1 (hap va vb hva hvb h1 h2) hl hm).1
    rw [ex_lt, ex_zero] at hcr
    linarith
  refine ⟨⟨⟨e', rfl⟩, hap, hnb⟩, ?_⟩
  rcases stepEvent_sound h.tight.1 hap with ⟨err, -, -, hm⟩ | ⟨lp', hs, hso⟩
  · exact hm.elim
  · refine ⟨lp', hs, ?_⟩
    have ht := stepEvent_tight h.tight (by trivial) hs
    unfold stepEvent at hs
    obtain ⟨r, hr, hs⟩ := bind_ok.1 hs
    cases r with
    | none =>
      simp only [pure_ok, Except.ok.injEq] at hs
      subst hs
      exact ⟨ht, h.shared, hsub, R, t, hL, hc, hout, hone⟩
    | some r =>
      obtain ⟨st', arcs, evs⟩ := r
      simp only [pure_ok, Except.ok.injEq] at hs
      subst hs
      rcases handleEvent_cases hr with ⟨e2, va, vb, heq, hva, hvb, h1, h2, he⟩ |
        ⟨e, v, heq, -⟩ | ⟨d, p, e0, e1, e2, v0, v1, heq, -⟩
      · simp only [Event.edge.injEq] at heq
        subst heq
        have hlk := hap va vb hva hvb h1 h2
        obtain ⟨l, hl, -, hm⟩ := hL.lavOf hva h1
        obtain ⟨-, st2, a, es2, R', t', he2, hL', hc', hcount⟩ :=
          handleEdge_convex hL hc h.shared hva hvb h1 hlk hl hm
        rw [he] at he2
        simp only [Except.ok.injEq, Prod.mk.injEq] at he2
        obtain ⟨rfl, rfl, rfl⟩ := he2
        obtain ⟨hone1, hone2⟩ := hone l hl
        refine ⟨ht, handleEdge_shared hL h.shared hva hvb h1 hlk he, ?_, R', t', hL', hc', ?_⟩
        · intro x hx
          rcases List.mem_append.1 hx with hx | hx
          · exact hsub x (by simp [hx])
          · rw [(C08_putAll_perm _ _).mem_iff] at hx
            rcases List.mem_append.1 hx with hx | hx
            · exact hsub x (by simp [hx])
            · obtain ⟨id, hid⟩ := handleEdge_events he x hx
              exact hc'.nextEvent hL' hid
        · simp only [List.length_append, List.length_singleton]
          rcases hcount with ⟨hs1, hs2⟩ | ⟨hs1, hs2⟩
          · refine ⟨by omega, fun l' hl' => ?_⟩
            rw [hs1, hone1] at hl'
            simp at hl'
          · have h3 := hL'.three l (by rw [hs1]; exact hl)
            refine ⟨by omega, fun l' hl' => ?_⟩
            rw [hs1] at hl' ⊢
            have : l' = l := by rw [hone1] at hl'; simpa using hl'
            subst this
            exact ⟨hone1, by omega⟩
      · cases heq
      · cases heq

/-- the turn of the corner `k` -/
noncomputable def turnOf (t : Nat → ℝ) (n k : Nat) : ℝ :=
  if k = 0 then t 0 + 2 * π - t (n - 1) else t k - t (k - 1)

theorem turnOf_sum (t : Nat → ℝ) (n : Nat) : ((List.range' 0 (n + 1)).map (turnOf t (n + 1))).sum =
    2 * π := by
  have key : ∀ m, ((List.range' 1 m).map (turnOf t (n + 1))).sum = t m - t 0 := by
    intro m
    induction m with
    | zero => simp
    | succ m ih =>
      rw [List.range'_concat, List.map_append, List.sum_append, ih]
      simp [turnOf, Nat.add_comm 1 m]
  rw [List.range'_succ, List.map_cons, List.sum_cons, key]
  simp [turnOf]

theorem ConvexContour.corner {c : List (Edge2 ℝ)} (h : ConvexContour c) (h3 : 3 ≤ c.length) :
    ∃ t : Nat → ℝ, ((List.range' 0 c.length).map t).sum = 2 * π ∧
      ∀ k (hk : k < c.length), ∀ e, (cornerPairs c)[k]? = some e → TurnsBy (cornerCore e) (t k) := by
  obtain ⟨t, hn, hstep, hlast, hlast'⟩ := h
  obtain ⟨m, hm⟩ : ∃ m, c.length = m + 1 := ⟨c.length - 1, by omega⟩
  refine ⟨turnOf t c.length, by rw [hm]; exact turnOf_sum t m, ?_⟩
  intro k hk e he
  rw [cornerPairs_getElem hk] at he
  simp only [Option.some.injEq] at he
  subst he
  by_cases h0 : k = 0
  · subst h0
    refine corner_turnsBy (p := t (c.length - 1)) ?_ ?_ ?_ ?_
    · simp only [turnOf, if_true]; linarith
    · simp only [turnOf, if_true]; linarith
    · simp only [if_true]
      exact hn _ (by omega)
    · simp only [turnOf, if_true]
      rw [hn 0 (by omega)]
      simp only [unitDir, V2.mk.injEq]
      rw [show t (c.length - 1) + (t 0 + 2 * π - t (c.length - 1)) = t 0 + 2 * π by ring]
      simp
  · have hs := hstep (k - 1) (by omega)
    rw [show k - 1 + 1 = k by omega] at hs
    refine corner_turnsBy (p := t (k - 1)) ?_ ?_ ?_ ?_
    · simp only [turnOf, if_neg h0]; linarith
    · simp only [turnOf, if_neg h0]; linarith
    · simp only [if_neg h0]
      exact hn _ (by omega)
    · simp only [turnOf, if_neg h0]
      rw [hn k hk]
      congr 1; ring

theorem ConvexContour.no_dormers {c : List (Edge2 ℝ)} (h : ConvexContour c) (h3 : 3 ≤ c.length) :
    detectDormers [c] = .ok [] := by
  have hc : c ≠ [] := by rintro rfl; simp at h3
  obtain ⟨cands, -, hm, he, -⟩ := C36_detectDormers c [] hc
  apply he
  left
  cases cands with
  | nil => rfl
  | cons s cands =>
    exfalso
    obtain ⟨hs, hd, -⟩ := (hm s).1 (by simp)
    obtain ⟨x, hx, -, hx2⟩ := hd.1
    obtain ⟨t, -, ht⟩ := h.corner h3
    have hcp := cornerPairs_getElem hs
    have hr := (ht s hs _ hcp).convex
    have hidx : (s + c.length - 1) % c.length = if s = 0 then c.length - 1 else s - 1 := by
      by_cases h0 : s = 0
      · subst h0
        rw [if_pos rfl, Nat.zero_add, Nat.mod_eq_of_lt (by omega)]
      · rw [if_neg h0, show s + c.length - 1 = s - 1 + c.length by omega, Nat.add_mod_right,
          Nat.mod_eq_of_lt (by omega)]
    unfold cornerCross at hx
    rw [hidx, Nat.mod_eq_of_lt hs, List.getElem?_eq_getElem hs,
      List.getElem?_eq_getElem (by split <;> omega)] at hx
    simp only [Option.some.injEq] at hx
    have hr' : (fzero <. V2.cross (V2.smul (c[if s = 0 then c.length - 1 else s - 1]'(by
      split <;> omega)).norm (lit (-1) 1)) c[s].norm) = false := hr
    rw [ex_lt_false, ex_zero] at hr'
    simp only [ex_lt, ex_neg, ex_lit] at hx2
    rw [← hx] at hx2
    simp [V2.cross, V2.smul] at hr' hx2
    norm_num at hx2
    linarith

theorem startLoop_convex {c : List (Edge2 ℝ)} (h : ConvexContour c) (h3 : 3 ≤ c.length)
    {lp : Loop ℝ} (hs : startLoop [c] = .ok lp) : ConvexRun c.length lp [] := by
  have h3' : ∀ c' ∈ [c], 3 ≤ c'.length := by simpa using h3
  have hd := h.no_dormers h3
  have hj := startLoop_joined h3' hd hs
  obtain ⟨st, R, h1, hL, hsl, -, hlav, -⟩ := mkSlav_loops h3'
  rw [(startLoop_ok hs).1] at h1
  simp only [Except.ok.injEq] at h1
  subst h1
  have hl0 := hlav 0 c rfl
  simp only [List.take_zero, List.map_nil, List.sum_nil] at hl0
  have hsl' : lp.st.slav = [0] := by rw [hsl]; rfl
  obtain ⟨hR, -, hco⟩ := hl0
  obtain ⟨t, hsum, hturn⟩ := h.corner h3
  have hcw : ConvexWave lp.st R t := by
    constructor
    · intro l hl k hk c' hc'
      rw [hsl'] at hl
      simp only [List.mem_singleton] at hl
      subst hl
      rw [hR, List.mem_range'_1] at hk
      have hk' : k < c.length := by omega
      have := hco k hk'
      rw [Nat.zero_add, hc', cornerPairs_getElem hk'] at this
      simp only [Option.map_some, Option.some.injEq] at this
      subst this
      exact hturn k hk' _ (cornerPairs_getElem hk')
    · intro l hl
      rw [hsl'] at hl
      simp only [List.mem_singleton] at hl
      subst hl
      rw [hR, hsum]
  obtain ⟨-, hout, ds, init, init', hd', hi, hp, hq⟩ := startLoop_ok hs
  refine ⟨by simpa using startLoop_tight h3' hs, hj.shared, ?_, R, t, hL, hcw, ?_, ?_⟩
  · intro e he
    simp only [List.nil_append] at he
    rw [hd] at hd'
    simp only [Except.ok.injEq] at hd'
    subst hd'
    simp only [List.isEmpty_nil, if_true, Except.ok.injEq] at hp
    subst hp
    rw [hq, (C08_putAll_perm _ _).mem_iff] at he
    simp only [List.nil_append, List.mem_filterMap, id, exists_eq_right] at he
    unfold initialEvents at hi
    obtain ⟨ids, -, hi⟩ := bind_ok.1 hi
    obtain ⟨id, -, h1⟩ := forall₂_mem_right (mapM_ok hi) he
    exact hcw.nextEvent hL h1
  · rw [hout]; simp; omega
  · intro l hl
    rw [hsl'] at hl ⊢
    simp only [List.mem_singleton] at hl
    subst hl
    rw [hout, hR]
    simp

end Polyskel
