import Verif.Proofs.Sweep
import Verif.Props.NextEvent
/-
The wavefront of a convex contour at a time of the shrinking process, used for C60.  This file is
about the geometry only: the vertices are numbers, `q k` is the constant part of the vertex `k`.
-/
namespace Polyskel
open Scalar Real Geo
set_option linter.unusedSectionVars false

/-- A vertex of the wavefront of the contour `c` at the time `t`: it is at the place `y` of its
bisector, which has the distance `t` from its edges, and at least this one from all others; at its
start it was like this, too. -/
structure Sharp (c : List (Edge2 ℝ)) (q : Core ℝ) (θ : ℝ) (y : V2 ℝ) (t : ℝ) : Prop where
  turn : TurnsBy q θ
  pos : 0 < θ
  ray : q.bisector = Ray2 q.point q.bisector.v
  prev : q.edgePrev ∈ c
  next : q.edgeNext ∈ c
  on : ∃ s, 0 ≤ s ∧ y = along q.point q.bisector.v s
  hp : hgt q.edgePrev y = t
  hn : hgt q.edgeNext y = t
  birth : ∃ τ, hgt q.edgePrev q.point = τ ∧ hgt q.edgeNext q.point = τ ∧ ∀ e ∈ c, τ ≤ hgt e q.point
  inside : ∀ e ∈ c, t ≤ hgt e y

/-- `j` follows `k` -/
def FStep (nx : Nat → Nat) (q : Nat → Core ℝ) (th : Nat → ℝ) (y : Nat → V2 ℝ) (lam : Nat → ℝ)
    (k j : Nat) : Prop :=
  j = nx k ∧ (q k).edgeNext = (q j).edgePrev ∧
    ChainStep y (fun k => (q k).edgeNext.norm) lam th k j

/-- The wavefront `a :: T` of the contour `c` at the time `t`. -/
structure Front (c : List (Edge2 ℝ)) (nx : Nat → Nat) (q : Nat → Core ℝ) (th : Nat → ℝ)
    (y : Nat → V2 ℝ) (lam : Nat → ℝ) (t : ℝ) (a : Nat) (T : List Nat) : Prop where
  vertex : ∀ k ∈ a :: T, Sharp c (q k) (th k) (y k) t
  chain : (a :: T ++ [a]).IsChain (FStep nx q th y lam)
  nonneg : ∀ k ∈ a :: T, 0 ≤ lam k
  total : ((a :: T).map th).sum = 2 * π
  rest : (∀ k ∈ a :: T, th k < π) → ∀ P u, t ≤ u → (∀ k ∈ a :: T, u ≤ hgt (q k).edgeNext P) →
    ∀ e ∈ c, u ≤ hgt e P
  time : 0 ≤ t
  three : 2 ≤ T.length

variable {c : List (Edge2 ℝ)} {nx : Nat → Nat} {q : Nat → Core ℝ} {th : Nat → ℝ} {y : Nat → V2 ℝ}
  {lam : Nat → ℝ} {t : ℝ}

theorem Front.rotate {a b : Nat} {A B : List Nat} (h : Front c nx q th y lam t a (A ++ b :: B)) :
    Front c nx q th y lam t b (B ++ a :: A) := by
  have hp : (b :: (B ++ a :: A)).Perm (a :: (A ++ b :: B)) := by
    have := List.perm_append_comm (l₁ := b :: B) (l₂ := a :: A)
    simpa using this
  refine ⟨fun k hk => h.vertex k (hp.mem_iff.1 hk), ?_, fun k hk => h.nonneg k (hp.mem_iff.1 hk), ?_,
    ?_, h.time, ?_⟩
  · have h1 := h.chain
    have e1 : a :: (A ++ b :: B) ++ [a] = (a :: A) ++ b :: (B ++ [a]) := by simp
    have e2 : b :: (B ++ a :: A) ++ [b] = (b :: B) ++ a :: (A ++ [b]) := by simp
    rw [e1, List.isChain_split] at h1
    rw [e2, List.isChain_split]
    exact ⟨h1.2, h1.1⟩
  · rw [(hp.map th).sum_eq]
    exact h.total
  · intro h1 P u hu h2
    exact h.rest (fun k hk => h1 k (hp.mem_iff.2 hk)) P u hu (fun k hk => h2 k (hp.mem_iff.2 hk))
  · have := hp.length_eq
    have := h.three
    simp at *
    omega

theorem Front.around {a : Nat} {T : List Nat} (h : Front c nx q th y lam t a T) :
    Around y (fun k => (q k).edgeNext.norm) lam th a T :=
  ⟨h.chain.imp (fun _ _ h => h.2.2), fun k hk => (h.vertex k hk).pos, h.nonneg, h.total⟩

/-- how fast the edges of a vertex go away along its bisector -/
theorem TurnsBy.rate {q : Core ℝ} {θ : ℝ} (h : TurnsBy q θ) :
    cr q.edgePrev.norm q.bisector.v = sin θ ∧ cr q.edgeNext.norm q.bisector.v = sin θ := by
  obtain ⟨p, h1, h2⟩ := h.dir
  rw [h.bis, h1, h2]
  refine ⟨(bis_out p θ).1, ?_⟩
  have := (bis_in (p + θ) θ).1
  rwa [show p + θ - θ = p by ring] at this

theorem Sharp.hgt_along {k : Core ℝ} {θ : ℝ} {z : V2 ℝ} (h : Sharp c k θ z t) (s : ℝ) :
    hgt k.edgePrev (along z k.bisector.v s) = t + s * sin θ ∧
    hgt k.edgeNext (along z k.bisector.v s) = t + s * sin θ := by
  have h1 := h.hp
  have h2 := h.hn
  simp only [hgt] at h1 h2 ⊢
  rw [height_along, height_along, h1, h2, h.turn.rate.1, h.turn.rate.2]
  exact ⟨rfl, rfl⟩

theorem along_along (p v : V2 ℝ) (s u : ℝ) : along (along p v s) v u = along p v (s + u) := by
  simp only [along, V2.mk.injEq]
  constructor <;> ring

theorem Sharp.onLin {k : Core ℝ} {θ : ℝ} {z : V2 ℝ} (h : Sharp c k θ z t) {s : ℝ} (hs : 0 ≤ s) :
    OnLin k.bisector (along z k.bisector.v s) := by
  obtain ⟨s0, h0, h1⟩ := h.on
  rw [h.ray]
  refine ⟨s0 + s, fun _ => by linarith, ?_⟩
  rw [h1]
  exact along_along _ _ _ _

/-- the beginning of a wavefront -/
theorem Front.first {a b : Nat} {T : List Nat} (h : Front c nx q th y lam t a (b :: T)) :
    b = nx a ∧ (q a).edgeNext = (q b).edgePrev ∧
      y b = along (y a) (q a).edgeNext.norm (lam a) := by
  have := h.chain
  simp only [List.cons_append, List.isChain_cons_cons] at this
  exact ⟨this.1.1, this.1.2.1, this.1.2.2.1⟩

theorem Front.sum_lt {a b : Nat} {T : List Nat} (h : Front c nx q th y lam t a (b :: T)) :
    th a + th b < 2 * π ∧ th a + th b + (T.map th).sum = 2 * π := by
  have h1 := h.total
  have h3 := h.three
  simp only [List.map_cons, List.sum_cons] at h1
  cases T with
  | nil => simp at h3
  | cons d T =>
    have h2 := sum_nonneg_of (th := th) (T := T) (fun k hk => (h.vertex k (by simp [hk])).pos)
    have h4 := (h.vertex d (by simp)).pos
    simp only [List.map_cons, List.sum_cons] at h1 ⊢
    constructor <;> linarith

/-- the directions of the edges of two neighbours -/
theorem Front.dirs {a b : Nat} {T : List Nat} (h : Front c nx q th y lam t a (b :: T)) :
    ∃ φ, (q a).edgePrev.norm = unitDir (φ - th a) ∧ (q a).edgeNext.norm = unitDir φ ∧
      (q b).edgePrev.norm = unitDir φ ∧ (q b).edgeNext.norm = unitDir (φ + th b) := by
  obtain ⟨p, h1, h2⟩ := (h.vertex a (by simp)).turn.dir
  obtain ⟨r, h3, h4⟩ := (h.vertex b (by simp)).turn.dir
  have he := h.first.2.1
  refine ⟨p + th a, by rw [h1]; congr 1; ring, h2, by rw [← he, h2], ?_⟩
  rw [h4]
  apply unitDir_add
  rw [← h3, ← he, h2]

/-- when a wavefront turns by more than a half turn at an end of an edge, this edge has no length -/
theorem Front.big {a b : Nat} {T : List Nat} (h : Front c nx q th y lam t a (b :: T)) :
    π < th a ∨ π < th b → lam a = 0 := by
  rintro (h1 | h1)
  · rcases List.eq_nil_or_concat (b :: T) with e | ⟨T', z, e⟩
    · simp at e
    · have h2 := h.around
      rw [e, List.concat_eq_append] at h2
      exact ((h2.flat h1.le).2 h1).2
  · have h2 := (Front.rotate (A := []) h).around
    exact ((h2.flat h1.le).2 h1).1

/-- two neighbours meet -/
theorem Front.meet {a b : Nat} {T : List Nat} (h : Front c nx q th y lam t a (b :: T)) :
    ¬ Parallel (q a).bisector.v (q b).bisector.v ∧ ∃ X u w, OnLin (q a).bisector X ∧
      OnLin (q b).bisector X ∧ 0 ≤ u ∧ 0 ≤ w ∧ X = along (y a) (q a).bisector.v u ∧
      X = along (y b) (q b).bisector.v w ∧
      u * sin (th a) = gain (lam a) (th a) (th b) ∧ w * sin (th b) = gain (lam a) (th a) (th b) ∧
      (lam a = 0 ∨ π ≤ th a → X = y b) ∧ (lam a = 0 ∨ π ≤ th b → X = y a) := by
  obtain ⟨φ, h1, h2, h3, h4⟩ := h.dirs
  have va := h.vertex a (by simp)
  have vb := h.vertex b (by simp)
  have ba := va.turn.bis
  have bb := vb.turn.bis
  rw [h1, h2] at ba
  rw [h3, h4] at bb
  have hs := h.sum_lt.1
  have hy := h.first.2.2
  rw [h2] at hy
  obtain ⟨u, w, hu, hw, he, g1, g2, w0, u0⟩ := Polyskel.meet va.pos vb.pos hs (h.nonneg a (by simp)) h.big
    ba bb hy
  refine ⟨?_, _, u, w, va.onLin hu, ?_, hu, hw, rfl, he, g1, g2, fun h' => ?_, fun h' => ?_⟩
  · rw [ba, bb]
    exact not_parallel va.pos vb.pos hs
  · rw [he]
    exact vb.onLin hw
  · rw [he, w0 h']
    simp [along]
  · rw [u0 h']
    simp [along]

/-- two bisectors that are not parallel meet in one place at most -/
theorem onLin_unique {A B : Lin ℝ} (h : ¬ Parallel A.v B.v) {p p' : V2 ℝ} (h1 : OnLin A p)
    (h2 : OnLin B p) (h3 : OnLin A p') (h4 : OnLin B p') : p = p' := by
  have e1 := (C01_intersect_iff A B p).2 ⟨h, h1, h2⟩
  have e2 := (C01_intersect_iff A B p').2 ⟨h, h3, h4⟩
  rw [e1] at e2
  exact Option.some.inj e2

/-- the time at which `k` meets the next one -/
noncomputable def meetTime (nx : Nat → Nat) (th lam : Nat → ℝ) (t : ℝ) (k : Nat) : ℝ :=
  t + gain (lam k) (th k) (th (nx k))

/-- the event of two neighbours is at that time -/
theorem Front.event {a b : Nat} {T : List Nat} (h : Front c nx q th y lam t a (b :: T)) {X : V2 ℝ}
    (h1 : OnLin (q a).bisector X) (h2 : OnLin (q b).bisector X) :
    hgt (q a).edgePrev X = meetTime nx th lam t a ∧
    hgt (q a).edgeNext X = meetTime nx th lam t a ∧
    hgt (q b).edgeNext X = meetTime nx th lam t a := by
  obtain ⟨hp, X', u, w, g1, g2, hu, hw, e1, e2, f1, f2, -⟩ := h.meet
  rw [onLin_unique hp h1 h2 g1 g2]
  rw [meetTime, ← h.first.1]
  have va := (h.vertex a (by simp)).hgt_along u
  have vb := (h.vertex b (by simp)).hgt_along w
  rw [← e1, f1] at va
  rw [← e2, f2] at vb
  exact ⟨va.1, va.2, vb.2⟩

theorem Front.meetTime_ge {a : Nat} {T : List Nat} (h : Front c nx q th y lam t a T) {k : Nat}
    (hk : k ∈ a :: T) : t ≤ meetTime nx th lam t k := by
  have key : ∀ {a : Nat} {T : List Nat}, Front c nx q th y lam t a T → t ≤ meetTime nx th lam t a := by
    intro a T h
    have h3 := h.three
    cases T with
    | nil => simp at h3
    | cons b T =>
      have := gain_nonneg (h.nonneg a (by simp)) (h.vertex a (by simp)).pos (h.vertex b (by simp)).pos
      rw [meetTime, ← h.first.1]
      linarith
  rcases List.mem_cons.1 hk with rfl | hk
  · exact key h
  · obtain ⟨A, B, rfl⟩ := List.append_of_mem hk
    exact key h.rotate

/-- a wavefront that starts with `k` -/
theorem Front.from {a : Nat} {T : List Nat} (h : Front c nx q th y lam t a T) {k : Nat}
    (hk : k ∈ a :: T) : ∃ T', Front c nx q th y lam t k T' ∧ (k :: T').Perm (a :: T) := by
  rcases List.mem_cons.1 hk with rfl | hk
  · exact ⟨T, h, .refl _⟩
  · obtain ⟨A, B, rfl⟩ := List.append_of_mem hk
    refine ⟨_, h.rotate, ?_⟩
    have := List.perm_append_comm (l₁ := k :: B) (l₂ := a :: A)
    simpa using this

theorem Front.next_mem {a : Nat} {T : List Nat} (h : Front c nx q th y lam t a T) {k : Nat}
    (hk : k ∈ a :: T) : nx k ∈ a :: T ∧ ∃ T', Front c nx q th y lam t k (nx k :: T') ∧
      (k :: nx k :: T').Perm (a :: T) := by
  obtain ⟨T', h', hp⟩ := h.from hk
  have h3 := h'.three
  cases T' with
  | nil => simp at h3
  | cons b T' =>
    have := h'.first.1
    subst this
    exact ⟨hp.mem_iff.1 (by simp), T', h', hp⟩

theorem hgt_trans (e : Edge2 ℝ) (a b : V2 ℝ) : hgt e b = hgt e a + height a e.norm b := by
  simp only [hgt, height]; ring

/-- all places of a wavefront are at least as far from each of its edges as the vertices of it -/
theorem Around.inside {n : Nat → V2 ℝ} {a : Nat} {T : List Nat} (h : Around y n lam th a T) {j k : Nat}
    (hj : j ∈ a :: T) (hk : k ∈ a :: T) : 0 ≤ height (y j) (n j) (y k) := by
  have key : ∀ {a : Nat} {T : List Nat}, Around y n lam th a T → ∀ k ∈ a :: T,
      0 ≤ height (y a) (n a) (y k) := by
    intro a T h k hk
    rcases List.mem_cons.1 hk with rfl | hk
    · simp [height]
    · exact h.left hk
  rcases List.mem_cons.1 hj with rfl | hj
  · exact key h k hk
  · obtain ⟨A, B, rfl⟩ := List.append_of_mem hj
    have hp : (j :: (B ++ a :: A)).Perm (a :: (A ++ j :: B)) := by
      have := List.perm_append_comm (l₁ := j :: B) (l₂ := a :: A)
      simpa using this
    have h' : Around y n lam th j (B ++ a :: A) := by
      refine ⟨?_, fun k hk => h.pos k (hp.mem_iff.1 hk), fun k hk => h.nonneg k (hp.mem_iff.1 hk), ?_⟩
      · have h1 := h.chain
        have e1 : a :: (A ++ j :: B) ++ [a] = (a :: A) ++ j :: (B ++ [a]) := by simp
        have e2 : j :: (B ++ a :: A) ++ [j] = (j :: B) ++ a :: (A ++ [j]) := by simp
        rw [e1, List.isChain_split] at h1
        rw [e2, List.isChain_split]
        exact ⟨h1.2, h1.1⟩
      · rw [(hp.map th).sum_eq]
        exact h.total
    exact key h' k (hp.mem_iff.2 hk)

/-- The wavefront moves on, until two neighbours meet at most. -/
theorem Front.advance {a : Nat} {T : List Nat} (h : Front c nx q th y lam t a T) {t' : ℝ}
    (h0 : t ≤ t') (hm : ∀ k ∈ a :: T, t' ≤ meetTime nx th lam t k) :
    ∃ y' lam', Front c nx q th y' lam' t' a T ∧
      ∀ k ∈ a :: T, meetTime nx th lam' t' k = meetTime nx th lam t k := by
  rcases h0.lt_or_eq with h0 | rfl
  swap
  · exact ⟨y, lam, h, fun _ _ => rfl⟩
  obtain ⟨δ, rfl⟩ : ∃ δ, t' = t + δ := ⟨t' - t, by ring⟩
  have hδ : 0 < δ := by linarith
  have hg : ∀ k ∈ a :: T, 0 < lam k ∧ th k < π ∧ th (nx k) < π ∧ δ ≤ gain (lam k) (th k) (th (nx k)) := by
    intro k hk
    have := hm k hk
    rw [meetTime] at this
    have hg : δ ≤ gain (lam k) (th k) (th (nx k)) := by linarith
    obtain ⟨g1, g2, g3⟩ := gain_pos (h.nonneg k hk) (lt_of_lt_of_le hδ hg)
    exact ⟨g1, g2, g3, hg⟩
  refine ⟨fun k => along (y k) (q k).bisector.v (δ / sin (th k)),
    fun k => lam k - δ * (kap (th k) + kap (th (nx k))), ?_, ?_⟩
  swap
  · intro k hk
    obtain ⟨g1, g2, g3, g4⟩ := hg k hk
    have p1 := (h.vertex k hk).pos
    have p2 := (h.vertex _ (h.next_mem hk).1).pos
    have k1 := kap_pos p1 g2
    have k2 := kap_pos p2 g3
    have e1 : gain (lam k) (th k) (th (nx k)) = lam k / (kap (th k) + kap (th (nx k))) := by
      rw [gain, if_neg]
      simp only [not_or, not_le]
      exact ⟨g1.ne', g2, g3⟩
    have e2 : gain (lam k - δ * (kap (th k) + kap (th (nx k)))) (th k) (th (nx k)) =
        (lam k - δ * (kap (th k) + kap (th (nx k)))) / (kap (th k) + kap (th (nx k))) := by
      by_cases hz : lam k - δ * (kap (th k) + kap (th (nx k))) = 0
      · rw [gain, if_pos (Or.inl hz), hz, zero_div]
      · rw [gain, if_neg]
        simp only [not_or, not_le]
        exact ⟨hz, g2, g3⟩
    simp only [meetTime]
    rw [e1, e2]
    have : kap (th k) + kap (th (nx k)) ≠ 0 := by positivity
    field_simp
    ring
  -- the steps
  have hchain : (a :: T ++ [a]).IsChain (FStep nx q th
      (fun k => along (y k) (q k).bisector.v (δ / sin (th k)))
      (fun k => lam k - δ * (kap (th k) + kap (th (nx k))))) := by
    have hstep : ∀ k ∈ a :: T, ∀ j, FStep nx q th y lam k j → FStep nx q th
      (fun k => along (y k) (q k).bisector.v (δ / sin (th k)))
      (fun k => lam k - δ * (kap (th k) + kap (th (nx k)))) k j := by
      rintro k hk j ⟨rfl, h2, h3, h4⟩
      refine ⟨rfl, h2, ?_, h4⟩
      obtain ⟨T', h', -⟩ := (h.next_mem hk).2
      obtain ⟨g1, g2, g3, g4⟩ := hg k hk
      have p1 := (h.vertex k hk).pos
      have p2 := (h.vertex _ (h.next_mem hk).1).pos
      obtain ⟨φ, d1, d2, d3, d4⟩ := h'.dirs
      have ba := (h.vertex k hk).turn.bis
      have bb := (h.vertex _ (h.next_mem hk).1).turn.bis
      rw [d1, d2] at ba
      rw [d3, d4] at bb
      simp only [d2] at h3 ⊢
      exact Polyskel.advance p1 p2 g2 g3 ba bb h3
    have h1 := h.chain
    have hmem : ∀ L : List Nat, ∀ z, (∀ k ∈ L, k ∈ a :: T) → (L ++ [z]).IsChain (FStep nx q th y lam) →
        (L ++ [z]).IsChain (FStep nx q th (fun k => along (y k) (q k).bisector.v (δ / sin (th k)))
          (fun k => lam k - δ * (kap (th k) + kap (th (nx k))))) := by
      intro L z
      induction L with
      | nil => intro _ _; simp
      | cons k L ih =>
        intro hL hc
        cases L with
        | nil =>
          simp only [List.cons_append, List.nil_append, List.isChain_cons_cons] at hc ⊢
          exact ⟨hstep k (hL k (by simp)) _ hc.1, by simp⟩
        | cons m L =>
          simp only [List.cons_append, List.isChain_cons_cons] at hc ⊢
          refine ⟨hstep k (hL k (by simp)) _ hc.1, ?_⟩
          have := ih (fun k hk => hL k (List.mem_cons_of_mem _ hk)) (by simpa using hc.2)
          simpa using this
    exact hmem (a :: T) a (fun k hk => hk) h1
  have hnn : ∀ k ∈ a :: T, 0 ≤ lam k - δ * (kap (th k) + kap (th (nx k))) := by
    intro k hk
    obtain ⟨g1, g2, g3, g4⟩ := hg k hk
    exact gain_advance g1 (h.vertex k hk).pos (h.vertex _ (h.next_mem hk).1).pos g2 g3 g4
  have hon : ∀ k ∈ a :: T, hgt (q k).edgePrev (along (y k) (q k).bisector.v (δ / sin (th k))) = t + δ ∧
      hgt (q k).edgeNext (along (y k) (q k).bisector.v (δ / sin (th k))) = t + δ := by
    intro k hk
    have hs := sin_pos_of_pos_of_lt_pi (h.vertex k hk).pos (hg k hk).2.1
    have := (h.vertex k hk).hgt_along (δ / sin (th k))
    rwa [div_mul_cancel₀ _ hs.ne'] at this
  have har : Around (fun k => along (y k) (q k).bisector.v (δ / sin (th k)))
      (fun k => (q k).edgeNext.norm) (fun k => lam k - δ * (kap (th k) + kap (th (nx k)))) th a T :=
    ⟨hchain.imp (fun _ _ h => h.2.2), fun k hk => (h.vertex k hk).pos, hnn, h.total⟩
  have hall : ∀ k ∈ a :: T, ∀ e ∈ c, t + δ ≤ hgt e (along (y k) (q k).bisector.v (δ / sin (th k))) := by
    intro k hk
    refine h.rest (fun k hk => (hg k hk).2.1) _ _ (by linarith) ?_
    intro j hj
    have h1 := har.inside hj hk
    have h2 := hgt_trans (q j).edgeNext (along (y j) (q j).bisector.v (δ / sin (th j)))
      (along (y k) (q k).bisector.v (δ / sin (th k)))
    rw [(hon j hj).2] at h2
    rw [h2]
    linarith
  refine ⟨?_, hchain, hnn, h.total, ?_, by linarith [h.time], h.three⟩
  · intro k hk
    have v := h.vertex k hk
    refine ⟨v.turn, v.pos, v.ray, v.prev, v.next, ?_, (hon k hk).1, (hon k hk).2, v.birth, hall k hk⟩
    obtain ⟨s, hs, he⟩ := v.on
    have hsin := sin_pos_of_pos_of_lt_pi v.pos (hg k hk).2.1
    refine ⟨s + δ / sin (th k), by positivity, ?_⟩
    rw [he, along_along]
  · intro h1 P u hu h2
    exact h.rest h1 P u (by linarith) h2

theorem chain_imp_mem {R R' : Nat → Nat → Prop} {L : List Nat} {z : Nat} (h : (L ++ [z]).IsChain R)
    (hi : ∀ k ∈ L, ∀ j ∈ L ++ [z], R k j → R' k j) : (L ++ [z]).IsChain R' := by
  induction L with
  | nil => simp
  | cons k L ih =>
    cases L with
    | nil =>
      simp only [List.cons_append, List.nil_append, List.isChain_cons_cons] at h ⊢
      exact ⟨hi k (by simp) _ (by simp) h.1, by simp⟩
    | cons m L =>
      simp only [List.cons_append, List.isChain_cons_cons] at h ⊢
      refine ⟨hi k (by simp) _ (by simp) h.1, ?_⟩
      have := ih (by simpa using h.2)
        (fun k hk j hj => hi k (List.mem_cons_of_mem _ hk) j (List.mem_cons_of_mem _ hj))
      simpa using this

theorem chain_next {L : List Nat} {z k : Nat} (h : (L ++ [z]).IsChain (FStep nx q th y lam))
    (hk : k ∈ L) : nx k ∈ L ++ [z] := by
  obtain ⟨A, B, rfl⟩ := List.append_of_mem hk
  have e : A ++ k :: B ++ [z] = A ++ k :: (B ++ [z]) := by simp
  rw [e, List.isChain_split] at h
  have h2 := h.2
  cases B with
  | nil =>
    simp only [List.nil_append, List.isChain_cons_cons] at h2
    rw [← h2.1.1]; simp
  | cons m B =>
    simp only [List.cons_append, List.isChain_cons_cons] at h2
    rw [← h2.1.1]; simp

/-- a chain that does not move -/
theorem chain_const {a z : Nat} {L : List Nat} (h : (a :: L ++ [z]).IsChain (FStep nx q th y lam))
    (h0 : ∀ k ∈ a :: L, lam k = 0) : y z = y a := by
  induction L generalizing a with
  | nil =>
    simp only [List.cons_append, List.nil_append, List.isChain_cons_cons] at h
    rw [h.1.2.2.1, h0 a (by simp)]
    simp [along]
  | cons b L ih =>
    simp only [List.cons_append, List.isChain_cons_cons] at h
    rw [ih (by simpa using h.2) (fun k hk => h0 k (List.mem_cons_of_mem _ hk)), h.1.2.2.1,
      h0 a (by simp)]
    simp [along]

theorem gain_zero {l α β : ℝ} (ha : 0 < α) (hb : 0 < β) (h : gain l α β = 0) :
    l = 0 ∨ π ≤ α ∨ π ≤ β := by
  by_contra hc
  rw [gain, if_neg hc] at h
  simp only [not_or, not_le] at hc
  have := kap_pos ha hc.2.1
  have := kap_pos hb hc.2.2
  have h2 : kap α + kap β ≠ 0 := by positivity
  rcases div_eq_zero_iff.1 h with h | h
  · exact hc.1 h
  · exact h2 h

/-- the last step of a wavefront -/
theorem Front.last {a p : Nat} {T : List Nat} (h : Front c nx q th y lam t a (T ++ [p])) :
    FStep nx q th y lam p a := by
  have h1 := h.chain
  have e1 : a :: (T ++ [p]) ++ [a] = (a :: T) ++ p :: [a] := by simp
  rw [e1, List.isChain_split] at h1
  simpa using h1.2

/-- where the neighbours of two vertices are that meet -/
theorem Front.around_meet {a b n p : Nat} {P : List Nat}
    (h : Front c nx q th y lam t a (b :: n :: (P ++ [p])))
    (hg : gain (lam a) (th a) (th b) = 0) {X : V2 ℝ} (h1 : OnLin (q a).bisector X)
    (h2 : OnLin (q b).bisector X) :
    (X = y a ∨ X = y b) ∧ ∃ l1 l2, 0 ≤ l1 ∧ 0 ≤ l2 ∧ X = along (y p) (q p).edgeNext.norm l1 ∧
      y n = along X (q b).edgeNext.norm l2 ∧ (th a + th b < π → l1 = lam p ∧ l2 = lam b) := by
  obtain ⟨hp, X', u, w, g1, g2, hu, hw, e1, e2, f1, f2, k1, k2⟩ := h.meet
  obtain rfl := onLin_unique hp h1 h2 g1 g2
  have va := h.vertex a (by simp)
  have vb := h.vertex b (by simp)
  have hbn := (Front.rotate (A := []) h).first.2.2
  have hpa := (Front.last (T := b :: n :: P) h).2.2.1
  simp only at hpa
  have hb := Front.rotate (A := []) h
  have hch := h.chain
  have hch2 : (n :: P ++ [p]).IsChain (FStep nx q th y lam) := by
    have h1 := hch
    have e1 : a :: (b :: n :: (P ++ [p])) ++ [a] = [a, b] ++ n :: ((P ++ [p]) ++ [a]) := by simp
    rw [e1, List.isChain_split] at h1
    have h2 := h1.2
    have e2 : n :: ((P ++ [p]) ++ [a]) = (n :: P) ++ p :: [a] := by simp
    rw [e2, List.isChain_split] at h2
    exact h2.1
  by_cases hl : lam a = 0
  · have ea := k2 (Or.inl hl)
    have eb := k1 (Or.inl hl)
    refine ⟨Or.inl ea, lam p, lam b, h.nonneg p (by simp), h.nonneg b (by simp), ?_, ?_, fun _ => ⟨rfl, rfl⟩⟩
    · rw [ea, hpa]
    · rw [eb, hbn]
  rcases gain_zero va.pos vb.pos hg with h' | hpi | hpi
  · exact absurd h' hl
  · have eb := k1 (Or.inr hpi)
    have har := h.around
    have e : b :: n :: (P ++ [p]) = (b :: n :: P) ++ [p] := by simp
    rw [e] at har
    have hz := (har.flat hpi).1
    have ln : y n = y b := by
      rw [hbn, hz b (by simp)]; simp [along]
    have lp : y p = y n := chain_const hch2 (fun k hk => hz k (List.mem_cons_of_mem _ hk))
    refine ⟨Or.inr eb, 0, 0, le_rfl, le_rfl, ?_, ?_, fun h' => ?_⟩
    · rw [lp, ln, eb]; simp [along]
    · rw [ln, eb]; simp [along]
    · have := vb.pos; linarith
  · have ea := k2 (Or.inr hpi)
    have har := hb.around
    have hz := (har.flat hpi).1
    have la : y a = y p := by
      rw [hpa, hz p (by simp)]; simp [along]
    have lp : y p = y n := chain_const hch2 (fun k hk => hz k (by simp at hk ⊢; tauto))
    refine ⟨Or.inl ea, 0, 0, le_rfl, le_rfl, ?_, ?_, fun h' => ?_⟩
    · rw [← la, ea]; simp [along]
    · rw [ea, la, lp]; simp [along]
    · have := va.pos; linarith

open Classical in
/-- Two vertices that meet become one. -/
theorem Front.merge {a b n p N : Nat} {P : List Nat}
    (h : Front c nx q th y lam t a (b :: n :: (P ++ [p])))
    (hd : (a :: b :: n :: (P ++ [p])).Nodup) (hN : N ∉ a :: b :: n :: (P ++ [p]))
    (hg : gain (lam a) (th a) (th b) = 0) {X : V2 ℝ} (h1 : OnLin (q a).bisector X)
    (h2 : OnLin (q b).bisector X) {nx' : Nat → Nat} {q' : Nat → Core ℝ} {r : Core ℝ}
    (hr : TurnsBy r (th a + th b))
    (hrp : r.edgePrev = (q a).edgePrev) (hrn : r.edgeNext = (q b).edgeNext) (hrX : r.point = X)
    (hrb : r.bisector = Ray2 X r.bisector.v) (hqN : q' N = r)
    (hq : ∀ k ∈ n :: (P ++ [p]), q' k = q k)
    (hnN : nx' N = n) (hnp : nx' p = N) (hn : ∀ k ∈ n :: P, nx' k = nx k) :
    ∃ th' y' lam', Front c nx' q' th' y' lam' t N (n :: (P ++ [p])) ∧ y' N = X ∧
      meetTime nx' th' lam' t p ≤ meetTime nx th lam t p ∧
      meetTime nx' th' lam' t N ≤ meetTime nx th lam t b ∧
      ∀ k ∈ n :: P, meetTime nx' th' lam' t k = meetTime nx th lam t k := by
  obtain ⟨hX, l1, l2, hl1, hl2, e1, e2, e3⟩ := h.around_meet hg h1 h2
  have va := h.vertex a (by simp)
  have vb := h.vertex b (by simp)
  have hev := h.event h1 h2
  have hT : meetTime nx th lam t a = t := by
    rw [meetTime, ← h.first.1, hg]; ring
  rw [hT] at hev
  have hnxb := (Front.rotate (A := []) h).first
  have hpa := Front.last (T := b :: n :: P) h
  have hNk : ∀ k ∈ n :: (P ++ [p]), k ≠ N := by
    rintro k hk rfl
    exact hN (List.mem_cons_of_mem _ (List.mem_cons_of_mem _ hk))
  have hkp : ∀ k ∈ n :: P, k ≠ p := by
    rintro k hk rfl
    simp only [List.nodup_cons, List.mem_cons, List.mem_append, List.nodup_append,
      List.not_mem_nil, or_false] at hd hk
    rcases hk with rfl | hk
    · tauto
    · have := hd.2.2.2.2.2 k hk k (by simp)
      exact this rfl
  have hsub : ∀ k ∈ n :: P, k ∈ n :: (P ++ [p]) := fun k hk => by simp at hk ⊢; tauto
  have hpm : p ∈ n :: (P ++ [p]) := by simp
  have hold : ∀ k ∈ n :: (P ++ [p]), k ∈ a :: b :: n :: (P ++ [p]) := fun k hk =>
    List.mem_cons_of_mem _ (List.mem_cons_of_mem _ hk)
  obtain ⟨th', hth⟩ : ∃ th' : Nat → ℝ, th' = fun k => if k = N then th a + th b else th k := ⟨_, rfl⟩
  obtain ⟨y', hy⟩ : ∃ y' : Nat → V2 ℝ, y' = fun k => if k = N then X else y k := ⟨_, rfl⟩
  obtain ⟨lam', hlam⟩ : ∃ lam' : Nat → ℝ,
    lam' = fun k => if k = N then l2 else if k = p then l1 else lam k := ⟨_, rfl⟩
  have thN : th' N = th a + th b := by rw [hth]; simp
  have yN : y' N = X := by rw [hy]; simp
  have lamN : lam' N = l2 := by rw [hlam]; simp
  have lamp : lam' p = l1 := by rw [hlam]; simp [hNk p hpm]
  have thk : ∀ k ∈ n :: (P ++ [p]), th' k = th k := fun k hk => by rw [hth]; simp [hNk k hk]
  have yk : ∀ k ∈ n :: (P ++ [p]), y' k = y k := fun k hk => by rw [hy]; simp [hNk k hk]
  have lamk : ∀ k ∈ n :: P, lam' k = lam k := fun k hk => by
    rw [hlam]; simp [hNk k (hsub k hk), hkp k hk]
  have hnn : n ∈ n :: (P ++ [p]) := by simp
  refine ⟨th', y', lam', ?_, yN, ?_, ?_, ?_⟩
  · constructor
    · intro k hk
      rcases List.mem_cons.1 hk with rfl | hk
      · rw [hqN, thN, yN]
        have hin : ∀ e ∈ c, t ≤ hgt e X := by
          rcases hX with e | e
          · rw [e]; exact va.inside
          · rw [e]; exact vb.inside
        refine ⟨hr, by linarith [va.pos, vb.pos], by rw [hrX]; exact hrb, by rw [hrp]; exact va.prev,
          by rw [hrn]; exact vb.next, ⟨0, le_rfl, by rw [hrX]; simp [along]⟩, by rw [hrp]; exact hev.1,
          by rw [hrn]; exact hev.2.2, ⟨t, by rw [hrp, hrX]; exact hev.1, by rw [hrn, hrX]; exact hev.2.2,
          by rw [hrX]; exact hin⟩, hin⟩
      · rw [hq k hk, thk k hk, yk k hk]
        exact h.vertex k (hold k hk)
    · have hch := h.chain
      have s1 : (n :: P ++ [p]).IsChain (FStep nx' q' th' y' lam') := by
        have h1 := hch
        have e1 : a :: (b :: n :: (P ++ [p])) ++ [a] = [a, b] ++ n :: ((P ++ [p]) ++ [a]) := by simp
        rw [e1, List.isChain_split] at h1
        have h2 := h1.2
        have e2 : n :: ((P ++ [p]) ++ [a]) = (n :: P) ++ p :: [a] := by simp
        rw [e2, List.isChain_split] at h2
        refine chain_imp_mem h2.1 ?_
        rintro k hk j hj ⟨f1, f2, f3, f4⟩
        have hk' := hsub k hk
        have hj' : j ∈ n :: (P ++ [p]) := by simpa using hj
        refine ⟨by rw [hn k hk]; exact f1, by rw [hq k hk', hq j hj']; exact f2, ?_, ?_⟩
        · simp only at f3 ⊢
          rw [yk k hk', yk j hj', hq k hk', lamk k hk]
          exact f3
        · simp only at f4 ⊢
          rw [hq k hk', hq j hj', thk j hj']
          exact f4
      have s0 : FStep nx' q' th' y' lam' N n := by
        obtain ⟨f1, f2, f3⟩ := hnxb
        obtain ⟨d, d1, d2⟩ := (h.vertex n (by simp)).turn.dir
        refine ⟨hnN.symm, by rw [hqN, hq n hnn, hrn]; exact f2, ?_, d, ?_, ?_⟩
        · simp only
          rw [yN, yk n hnn, hqN, hrn, lamN]
          exact e2
        · simp only
          rw [hqN, hrn, f2, d1]
        · simp only
          rw [hq n hnn, thk n hnn, d2]
      have s2 : FStep nx' q' th' y' lam' p N := by
        obtain ⟨f1, f2, f3⟩ := hpa
        obtain ⟨d, d1, d2⟩ := hr.dir
        refine ⟨hnp.symm, by rw [hqN, hq p hpm, hrp]; exact f2, ?_, d, ?_, ?_⟩
        · simp only
          rw [yN, yk p hpm, hq p hpm, lamp]
          exact e1
        · simp only
          rw [hq p hpm, f2, ← hrp, d1]
        · simp only
          rw [hqN, thN, d2]
      have e : N :: (n :: (P ++ [p])) ++ [N] = N :: ((n :: P) ++ p :: [N]) := by simp
      rw [e]
      have e' : N :: ((n :: P) ++ p :: [N]) = [N] ++ n :: (P ++ p :: [N]) := by simp
      rw [e', List.isChain_split]
      refine ⟨by simpa using s0, ?_⟩
      have e'' : n :: (P ++ p :: [N]) = (n :: P) ++ p :: [N] := by simp
      rw [e'', List.isChain_split]
      exact ⟨s1, by simpa using s2⟩
    · intro k hk
      rcases List.mem_cons.1 hk with rfl | hk
      · rw [lamN]; exact hl2
      · by_cases hkp' : k = p
        · rw [hkp', lamp]; exact hl1
        · have hk' : k ∈ n :: P := by simp at hk ⊢; tauto
          rw [lamk k hk']
          exact h.nonneg k (hold k hk)
    · have h3 := h.total
      rw [List.map_cons, List.sum_cons, thN, List.map_congr_left thk]
      simp only [List.map_cons, List.sum_cons] at h3 ⊢
      linarith
    · intro hlt Q u hu hQ
      have hab : th a + th b < π := by
        have := hlt N (by simp)
        rwa [thN] at this
      refine h.rest ?_ Q u hu ?_
      · intro k hk
        rcases List.mem_cons.1 hk with rfl | hk
        · linarith [vb.pos]
        · rcases List.mem_cons.1 hk with rfl | hk
          · linarith [va.pos]
          · have := hlt k (List.mem_cons_of_mem _ hk)
            rwa [thk k hk] at this
      · have hbQ : u ≤ hgt (q b).edgeNext Q := by
          have := hQ N (by simp)
          rwa [hqN, hrn] at this
        have hpQ : u ≤ hgt (q a).edgePrev Q := by
          have := hQ p (by simp)
          rwa [hq p hpm, hpa.2.1] at this
        intro k hk
        rcases List.mem_cons.1 hk with rfl | hk
        · obtain ⟨φ, d1, d2, d3, d4⟩ := h.dirs
          have m := middle (p := φ - th k) (α := th k) (β := th b) (t := t) (u := u) (X := X) (P := Q)
            va.pos vb.pos hab hu
          rw [show φ - th k + th k = φ by ring, ← d1, ← d2, ← d4] at m
          have t1 := hgt_trans (q k).edgePrev X Q
          have t2 := hgt_trans (q k).edgeNext X Q
          have t3 := hgt_trans (q b).edgeNext X Q
          rw [hev.1] at t1
          rw [hev.2.1] at t2
          rw [hev.2.2] at t3
          have := m (by linarith) (by linarith)
          linarith
        · rcases List.mem_cons.1 hk with rfl | hk
          · exact hbQ
          · have := hQ k (List.mem_cons_of_mem _ hk)
            rwa [hq k hk] at this
    · exact h.time
    · simp
  · rw [meetTime, meetTime, hnp, lamp, thk p hpm, thN, ← hpa.1]
    have vp := h.vertex p (by simp)
    by_cases hab : th a + th b < π
    · rw [(e3 hab).1]
      have := gain_mono (h.nonneg p (by simp)) vp.pos va.pos le_rfl
        (by linarith [vb.pos] : th a ≤ th a + th b)
      linarith
    · have g0 : gain l1 (th p) (th a + th b) = 0 := by
        rw [gain, if_pos (Or.inr (Or.inr (not_lt.1 hab)))]
      have := gain_nonneg (h.nonneg p (by simp)) vp.pos va.pos
      rw [g0]
      linarith
  · rw [meetTime, meetTime, hnN, lamN, thN, thk n hnn, ← hnxb.1]
    have vn := h.vertex n (by simp)
    by_cases hab : th a + th b < π
    · rw [(e3 hab).2]
      have := gain_mono (h.nonneg b (by simp)) vb.pos vn.pos
        (by linarith [va.pos] : th b ≤ th a + th b) le_rfl
      linarith
    · have g0 : gain l2 (th a + th b) (th n) = 0 := by
        rw [gain, if_pos (Or.inr (Or.inl (not_lt.1 hab)))]
      have := gain_nonneg (h.nonneg b (by simp)) vb.pos vn.pos
      rw [g0]
      linarith
  · intro k hk
    have hj : nx k ∈ n :: (P ++ [p]) := by
      have h1 := h.chain
      have e1 : a :: (b :: n :: (P ++ [p])) ++ [a] = [a, b] ++ n :: ((P ++ [p]) ++ [a]) := by simp
      rw [e1, List.isChain_split] at h1
      have h2 := h1.2
      have e2 : n :: ((P ++ [p]) ++ [a]) = (n :: P) ++ p :: [a] := by simp
      rw [e2, List.isChain_split] at h2
      have := chain_next h2.1 hk
      simpa using this
    rw [meetTime, meetTime, hn k hk, lamk k hk, thk k (hsub k hk), thk _ hj]

/-- At the end of a wavefront all three vertices meet. -/
theorem Front.peak {a b d : Nat} (h : Front c nx q th y lam t a [b, d])
    (hg : gain (lam a) (th a) (th b) = 0) {X : V2 ℝ} (h1 : OnLin (q a).bisector X)
    (h2 : OnLin (q b).bisector X) :
    (X = y a ∨ X = y b) ∧ OnLin (q d).bisector X ∧ hgt (q d).edgePrev X = t ∧
      hgt (q d).edgeNext X = t := by
  obtain ⟨hp, X', u, w, g1, g2, hu, hw, e1, e2, f1, f2, k1, k2⟩ := h.meet
  obtain rfl := onLin_unique hp h1 h2 g1 g2
  have va := h.vertex a (by simp)
  have vb := h.vertex b (by simp)
  have vd := h.vertex d (by simp)
  have hb := Front.rotate (A := []) h
  have hbd := hb.first.2.2
  have hbd' := hb.first.2.1
  have hda := (Front.last (T := [b]) h).2.2.1
  simp only at hda
  have key : ∀ s, 0 ≤ s → X = along (y d) (q d).bisector.v s → s * sin (th d) = 0 →
      OnLin (q d).bisector X ∧ hgt (q d).edgePrev X = t ∧ hgt (q d).edgeNext X = t := by
    intro s hs he hz
    have := vd.hgt_along s
    rw [hz, add_zero, ← he] at this
    exact ⟨by rw [he]; exact vd.onLin hs, this⟩
  have key0 : X = y d → OnLin (q d).bisector X ∧ hgt (q d).edgePrev X = t ∧
      hgt (q d).edgeNext X = t := by
    intro he
    exact key 0 le_rfl (by rw [he]; simp [along]) (by ring)
  by_cases hl : lam a = 0
  · have ea := k2 (Or.inl hl)
    have eb := k1 (Or.inl hl)
    refine ⟨Or.inl ea, ?_⟩
    obtain ⟨φ, d1, d2, d3, d4⟩ := hb.dirs
    rw [d2] at hbd
    rw [d4] at hda
    have hd := Front.rotate (A := []) hb
    have ebd : y b = along (along (y b) (unitDir φ) (lam b)) (unitDir (φ + th d)) (lam d) := by
      rw [← hbd, ← hda, ← ea, eb]
    rcases lt_trichotomy (th d) π with hlt | heq | hgt'
    · have hs := sin_pos_of_pos_of_lt_pi vd.pos hlt
      have hz : lam d * sin (th d) = 0 := by
        have hx := congrArg V2.x ebd
        have hy := congrArg V2.y ebd
        simp only [along, unitDir] at hx hy
        have := sin_sub (φ + th d) φ
        rw [show φ + th d - φ = th d by ring] at this
        rw [this]
        linear_combination sin φ * hx - cos φ * hy
      have hz' : lam d = 0 := by
        rcases mul_eq_zero.1 hz with h' | h'
        · exact h'
        · exact absurd h' hs.ne'
      apply key0
      rw [ea, hda, hz']; simp [along]
    · refine key (lam d / 2) (by linarith [h.nonneg d (by simp)]) ?_ (by rw [heq, sin_pi]; ring)
      rw [ea, hda, vd.turn.bis, d4, ← hbd', d2, heq]
      simp only [along, V2.sub, unitDir, ex_sub, ex_rnd, cos_add_pi, sin_add_pi, V2.mk.injEq]
      constructor <;> ring
    · have := ((hd.around.flat (T := [a]) (z := b) hgt'.le).2 hgt').2
      apply key0
      rw [ea, hda, this]; simp [along]
  rcases gain_zero va.pos vb.pos hg with h' | hpi | hpi
  · exact absurd h' hl
  · have eb := k1 (Or.inr hpi)
    have hz := (h.around.flat (T := [b]) (z := d) hpi).1 b (by simp)
    refine ⟨Or.inr eb, key0 ?_⟩
    rw [eb, hbd, hz]; simp [along]
  · have ea := k2 (Or.inr hpi)
    have hz := (hb.around.flat (T := [d]) (z := a) hpi).1 d (by simp)
    refine ⟨Or.inl ea, key0 ?_⟩
    rw [ea, hda, hz]; simp [along]

end Polyskel
