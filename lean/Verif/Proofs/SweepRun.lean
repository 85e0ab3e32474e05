import Verif.Proofs.Front
import Verif.Proofs.ConvexRun
import Verif.Proofs.RoofTree
import Verif.Spec.Roof
/-
Runs on convex contours as a shrinking process, used for C60.
-/
namespace Polyskel
open Scalar Real Geo
set_option linter.unusedSectionVars false

/-! ### Which events are queued -/

/-- the event of the neighbours `a` and `b` is among `evs` -/
def Queued (evs : List (Event ℝ)) (a b : Nat) : Prop := ∃ e, Event.edge e ∈ evs ∧ e.a = a ∧ e.b = b

/-- Each vertex of `L` has a neighbour it meets first, and either the event of the two is among `evs`,
or the neighbour is younger.  `TT k` is the time at which `k` meets the next one. -/
def Awaited (nx : Nat → Nat) (TT : Nat → ℝ) (evs : List (Event ℝ)) (L : List Nat) : Prop :=
  ∀ p ∈ L, (TT p ≤ TT (nx p) ∧ (Queued evs p (nx p) ∨ nx p < p)) ∨
    (TT (nx p) ≤ TT p ∧ (Queued evs (nx p) (nx (nx p)) ∨ nx p < nx (nx p)))

/-- the event of the two that meet first is queued -/
theorem Awaited.min {nx : Nat → Nat} {TT : Nat → ℝ} {evs : List (Event ℝ)} {L : List Nat}
    (h : Awaited nx TT evs L) (hne : L ≠ []) (hm : ∀ k ∈ L, nx k ∈ L)
    (hs : ∀ k ∈ L, ∃ p ∈ L, nx p = k) (hi : ∀ p ∈ L, ∀ p' ∈ L, nx p = nx p' → p = p') :
    ∃ p ∈ L, Queued evs p (nx p) ∧ ∀ k ∈ L, TT p ≤ TT k := by
  obtain ⟨m, hmL, hmin⟩ : ∃ m ∈ L, ∀ k ∈ L, TT m ≤ TT k := by
    obtain ⟨m, hm⟩ := Finset.exists_min_image L.toFinset TT (by simpa using hne)
    exact ⟨m, by simpa using hm.1, fun k hk => hm.2 k (by simpa using hk)⟩
  classical
  -- the youngest vertex that takes part in a first meeting
  let B := L.toFinset.filter (fun b => TT b = TT m ∨ ∃ p ∈ L, nx p = b ∧ TT p = TT m)
  have hB : B.Nonempty := ⟨m, by simp [B, hmL]⟩
  obtain ⟨b, hb, hmax⟩ := Finset.exists_max_image B (fun b => b) hB
  simp only [B, Finset.mem_filter, List.mem_toFinset] at hb hmax
  obtain ⟨p, hp, rfl⟩ := hs b hb.1
  have hlow : TT p = TT m ∨ TT (nx p) = TT m := by
    rcases hb.2 with h1 | ⟨p', hp', h1, h2⟩
    · exact Or.inr h1
    · exact Or.inl (by rw [hi p hp p' hp' h1.symm]; exact h2)
  have hmp := hmin p hp
  have hmn := hmin _ (hm p hp)
  rcases h p hp with ⟨h1, h2⟩ | ⟨h1, h2⟩
  · have hTp : TT p = TT m := by
      rcases hlow with h' | h'
      · exact h'
      · linarith
    rcases h2 with h2 | h2
    · exact ⟨p, hp, h2, fun k hk => by rw [hTp]; exact hmin k hk⟩
    · have := hmax p ⟨hp, Or.inl hTp⟩
      omega
  · have hTn : TT (nx p) = TT m := by
      rcases hlow with h' | h'
      · linarith
      · exact h'
    rcases h2 with h2 | h2
    · exact ⟨nx p, hm p hp, h2, fun k hk => by rw [hTn]; exact hmin k hk⟩
    · have := hmax (nx (nx p)) ⟨hm _ (hm p hp), Or.inr ⟨nx p, hm p hp, rfl, hTn⟩⟩
      omega

theorem Awaited.mono {nx : Nat → Nat} {TT TT' : Nat → ℝ} {evs evs' : List (Event ℝ)} {L : List Nat}
    (h : Awaited nx TT evs L) (hT : ∀ k ∈ L, TT' k = TT k) (hm : ∀ k ∈ L, nx k ∈ L)
    (hq : ∀ k ∈ L, Queued evs k (nx k) → Queued evs' k (nx k)) : Awaited nx TT' evs' L := by
  intro p hp
  rw [hT p hp, hT _ (hm p hp)]
  rcases h p hp with ⟨h1, h2⟩ | ⟨h1, h2⟩
  · exact Or.inl ⟨h1, h2.imp_left (hq p hp)⟩
  · exact Or.inr ⟨h1, h2.imp_left (hq _ (hm p hp))⟩

/-- the vertices `a` and `b` become `N` -/
theorem Awaited.merge {nx nx' : Nat → Nat} {TT TT' : Nat → ℝ} {evs evs' : List (Event ℝ)}
    {a b n p N : Nat} {P : List Nat} (h : Awaited nx TT evs (a :: b :: n :: (P ++ [p])))
    (hd : (a :: b :: n :: (P ++ [p])).Nodup) (hN : ∀ k ∈ a :: b :: n :: (P ++ [p]), k < N)
    (hbn : nx b = n) (hk : ∀ k ∈ n :: P, nx k ∈ P ++ [p])
    (hnN : nx' N = n) (hnp : nx' p = N) (hn : ∀ k ∈ n :: P, nx' k = nx k)
    (hTp : TT' p ≤ TT p) (hTN : TT' N ≤ TT b) (hT : ∀ k ∈ n :: P, TT' k = TT k)
    (hq : ∀ k ∈ n :: P, Queued evs k (nx k) → Queued evs' k (nx k))
    (hnew : (TT' p ≤ TT' N ∧ Queued evs' p N) ∨ (TT' N ≤ TT' p ∧ Queued evs' N n)) :
    Awaited nx' TT' evs' (N :: n :: (P ++ [p])) := by
  have hnm : n ∈ n :: P := by simp
  intro k hkm
  have hcase : k = N ∨ k = p ∨ k ∈ n :: P := by
    simp only [List.mem_cons, List.mem_append, List.not_mem_nil, or_false] at hkm ⊢
    tauto
  rcases hcase with rfl | rfl | hkP
  · rw [hnN]
    have hlt := hN n (by simp)
    by_cases hle : TT' k ≤ TT' n
    · exact Or.inl ⟨hle, Or.inr hlt⟩
    · right
      refine ⟨by linarith, ?_⟩
      rw [hn n hnm]
      have hb := h b (by simp)
      rw [hbn] at hb
      have := hT n hnm
      rcases hb with ⟨h1, -⟩ | ⟨-, h2⟩
      · linarith
      · exact h2.imp_left (hq n hnm)
  · rw [hnp, hnN]
    rcases hnew with ⟨h1, h2⟩ | ⟨h1, h2⟩
    · exact Or.inl ⟨h1, Or.inl h2⟩
    · exact Or.inr ⟨h1, Or.inl h2⟩
  · rw [hn k hkP]
    have hold := h k (by simp only [List.mem_cons, List.mem_append, List.not_mem_nil, or_false] at hkP ⊢; tauto)
    have hTk := hT k hkP
    have hnk := hk k hkP
    rcases List.mem_append.1 hnk with hnk | hnk
    · have hnk' : nx k ∈ n :: P := List.mem_cons_of_mem _ hnk
      rw [hTk, hT _ hnk', hn _ hnk']
      rcases hold with ⟨h1, h2⟩ | ⟨h1, h2⟩
      · exact Or.inl ⟨h1, h2.imp_left (hq k hkP)⟩
      · exact Or.inr ⟨h1, h2.imp_left (hq _ hnk')⟩
    · simp only [List.mem_singleton] at hnk
      rw [hnk, hnp]
      rw [hnk] at hold
      by_cases hle : TT' p ≤ TT' k
      · exact Or.inr ⟨hle, Or.inr (hN p (by simp))⟩
      · left
        refine ⟨by linarith, ?_⟩
        rcases hold with ⟨-, h2⟩ | ⟨h1, -⟩
        · exact h2.imp_left (fun h' => by have := hq k hkP (by rw [hnk]; exact h'); rwa [hnk] at this)
        · linarith

/-! ### Arcs -/

theorem hgt_between (e : Edge2 ℝ) (p q : V2 ℝ) (u : ℝ) :
    height e.p1 e.norm (between p q u) = (1 - u) * hgt e p + u * hgt e q := by
  simp only [hgt, height, between]; ring

/-- from the start of a vertex to a later place of it, there is a ridge -/
theorem Sharp.ridge {c : List (Edge2 ℝ)} {k : Core ℝ} {θ t t' : ℝ} {z X : V2 ℝ} (h : Sharp c k θ z t)
    (hθ : θ < 2 * π) (h1 : hgt k.edgePrev X = t') (h2 : hgt k.edgeNext X = t')
    (h3 : ∀ e ∈ c, t' ≤ hgt e X) {u : ℝ} (hu0 : 0 ≤ u) (hu1 : u ≤ 1) :
    RidgePoint c (between X k.point u) := by
  obtain ⟨τ, b1, b2, b3⟩ := h.birth
  refine ⟨k.edgePrev, h.prev, k.edgeNext, h.next, ?_, ?_, ?_⟩
  · intro he
    obtain ⟨p, d1, d2⟩ := h.turn.dir
    refine unitDir_ne (p := p) h.pos hθ ?_
    rw [← d1, ← d2, he]
  · rw [hgt_between, hgt_between, h1, h2, b1, b2]
  · intro e he
    rw [hgt_between, hgt_between, h1, b1]
    have m1 := mul_le_mul_of_nonneg_left (h3 e he) (by linarith : 0 ≤ 1 - u)
    have m2 := mul_le_mul_of_nonneg_left (b3 e he) hu0
    linarith

/-- two neighbours that meet make a node of the roof -/
theorem Front.triple {c : List (Edge2 ℝ)} {nx : Nat → Nat} {q : Nat → Core ℝ} {th : Nat → ℝ}
    {y : Nat → V2 ℝ} {lam : Nat → ℝ} {t : ℝ} {a b : Nat} {T : List Nat}
    (h : Front c nx q th y lam t a (b :: T)) {X : V2 ℝ} (h1 : OnLin (q a).bisector X)
    (h2 : OnLin (q b).bisector X) :
    ∃ e1 ∈ c, ∃ e2 ∈ c, ∃ e3 ∈ c, e1 ≠ e2 ∧ e2 ≠ e3 ∧ e1 ≠ e3 ∧
      hgt e1 X = meetTime nx th lam t a ∧ hgt e2 X = meetTime nx th lam t a ∧
      hgt e3 X = meetTime nx th lam t a := by
  have hev := h.event h1 h2
  obtain ⟨φ, d1, d2, d3, d4⟩ := h.dirs
  have va := h.vertex a (by simp)
  have vb := h.vertex b (by simp)
  have hs := h.sum_lt.1
  refine ⟨_, va.prev, _, va.next, _, vb.next, ?_, ?_, ?_, hev.1, hev.2.1, hev.2.2⟩
  · intro he
    refine unitDir_ne (p := φ - th a) (θ := th a) va.pos (by linarith [vb.pos]) ?_
    rw [← d1, he, d2]
    congr 1; ring
  · intro he
    refine unitDir_ne (p := φ) (θ := th b) vb.pos (by linarith [va.pos]) ?_
    rw [← d2, he, d4]
  · intro he
    refine unitDir_ne (p := φ - th a) (θ := th a + th b) (by linarith [va.pos, vb.pos]) hs ?_
    rw [← d1, he, d4]
    congr 1; ring

theorem chain_dir {nx : Nat → Nat} {q : Nat → Core ℝ} {th : Nat → ℝ} {y : Nat → V2 ℝ} {lam : Nat → ℝ}
    {k : Nat} {B : List Nat} : ∀ (A : List Nat) (a : Nat) (φ : ℝ),
    (a :: (A ++ k :: B)).IsChain (FStep nx q th y lam) → (∀ j ∈ A ++ [k], TurnsBy (q j) (th j)) →
    (q a).edgeNext.norm = unitDir φ →
    (q k).edgeNext.norm = unitDir (φ + ((A.map th).sum + th k))
  | [], a, φ, h, ht, ha => by
    simp only [List.nil_append, List.isChain_cons_cons] at h
    obtain ⟨p, h1, h2⟩ := (ht k (by simp)).dir
    rw [h2]
    simp only [List.map_nil, List.sum_nil, zero_add]
    apply unitDir_add
    rw [← h1, ← h.1.2.1, ha]
  | b :: A, a, φ, h, ht, ha => by
    simp only [List.cons_append, List.isChain_cons_cons] at h
    obtain ⟨p, h1, h2⟩ := (ht b (by simp)).dir
    have := chain_dir A b (φ + th b) h.2 (fun j hj => ht j (by simpa using Or.inr (by simpa using hj)))
      (by
        rw [h2]
        apply unitDir_add
        rw [← h1, ← h.1.2.1, ha])
    rw [this]
    congr 1
    simp only [List.map_cons, List.sum_cons]
    ring

/-- the vertices of a wavefront have different edges -/
theorem Front.next_ne {c : List (Edge2 ℝ)} {nx : Nat → Nat} {q : Nat → Core ℝ} {th : Nat → ℝ}
    {y : Nat → V2 ℝ} {lam : Nat → ℝ} {t : ℝ} {a k : Nat} {T : List Nat}
    (h : Front c nx q th y lam t a T) (hk : k ∈ T) : (q k).edgeNext ≠ (q a).edgeNext := by
  obtain ⟨A, B, rfl⟩ := List.append_of_mem hk
  obtain ⟨p, -, h2⟩ := (h.vertex a (by simp)).turn.dir
  have h1 : (a :: (A ++ k :: B)).IsChain (FStep nx q th y lam) :=
    List.IsChain.infix h.chain ⟨[], [a], by simp⟩
  have h3 := chain_dir A a _ h1 (fun j hj => (h.vertex j (by
    simp only [List.mem_append, List.mem_cons] at hj ⊢; tauto)).turn) h2
  intro he
  rw [he, h2] at h3
  have ht := h.total
  simp only [List.map_cons, List.map_append, List.sum_cons, List.sum_append] at ht
  have hA := sum_nonneg_of (th := th) (T := A) (fun j hj => (h.vertex j (by simp [hj])).pos)
  have hB := sum_nonneg_of (th := th) (T := B) (fun j hj => (h.vertex j (by simp [hj])).pos)
  have ha := (h.vertex a (by simp)).pos
  have hk := (h.vertex k (by simp)).pos
  exact unitDir_ne (by linarith) (by linarith) h3

/-- the edge between two neighbours belongs to no other vertex -/
theorem Front.mid_ne {c : List (Edge2 ℝ)} {nx : Nat → Nat} {q : Nat → Core ℝ} {th : Nat → ℝ}
    {y : Nat → V2 ℝ} {lam : Nat → ℝ} {t : ℝ} {a b k : Nat} {T : List Nat}
    (h : Front c nx q th y lam t a (b :: T)) (hk : k ∈ T) :
    (q k).edgePrev ≠ (q a).edgeNext ∧ (q k).edgeNext ≠ (q a).edgeNext := by
  refine ⟨?_, h.next_ne (by simp [hk])⟩
  obtain ⟨A, B, rfl⟩ := List.append_of_mem hk
  obtain ⟨A', p, hA⟩ : ∃ A' p, b :: A = A' ++ [p] := by
    rcases List.eq_nil_or_concat (b :: A) with e | ⟨T', z, e⟩
    · simp at e
    · exact ⟨T', z, by simpa using e⟩
  have hc := h.chain
  have e1 : a :: b :: (A ++ k :: B) ++ [a] = (a :: A') ++ p :: k :: (B ++ [a]) := by
    have : b :: (A ++ k :: B) = A' ++ [p] ++ k :: B := by rw [← hA]; simp
    rw [List.cons_append, this]; simp
  rw [e1, List.isChain_split] at hc
  have hs := hc.2
  rw [List.isChain_cons_cons] at hs
  rw [← hs.1.2.1]
  apply h.next_ne
  have : p ∈ b :: A := by rw [hA]; simp
  simp only [List.mem_cons, List.mem_append] at this ⊢
  tauto

theorem Front.node {c : List (Edge2 ℝ)} {nx : Nat → Nat} {q : Nat → Core ℝ} {th : Nat → ℝ}
    {y : Nat → V2 ℝ} {lam : Nat → ℝ} {t : ℝ} {a b : Nat} {T : List Nat}
    (h : Front c nx q th y lam t a (b :: T)) {X : V2 ℝ} (h1 : OnLin (q a).bisector X)
    (h2 : OnLin (q b).bisector X) (hg : gain (lam a) (th a) (th b) = 0)
    (hin : ∀ e ∈ c, t ≤ hgt e X) : RoofNode c X t := by
  have hT : meetTime nx th lam t a = t := by
    rw [meetTime, ← h.first.1, hg]; ring
  have hev := h.triple h1 h2
  rw [hT] at hev
  exact ⟨hin, hev⟩

/-! ### On the heap -/

/-- an edge event as `next_event` makes it -/
def EvGood (st : St ℝ) (e : EdgeEv ℝ) : Prop :=
  ∃ qa qb, st.co e.a = some qa ∧ st.co e.b = some qb ∧ OnLin qa.bisector e.pt ∧
    OnLin qb.bisector e.pt ∧ e.dist = |hgt qa.edgeNext e.pt|

/-- the only LAV of the heap is the list `a :: T` -/
structure OnHeap (st : St ℝ) (l : Nat) (R : Nat → List Nat) (nx : Nat → Nat) (q : Nat → Core ℝ)
    (a : Nat) (T : List Nat) : Prop where
  loops : Loops st R
  slav : st.slav = [l]
  perm : (a :: T).Perm (R l)
  seg : Seg st a T a
  nx : ∀ k ∈ a :: T, st.nx k = some (nx k)
  co : ∀ k ∈ a :: T, st.co k = some (q k)

variable {c : List (Edge2 ℝ)} {nx : Nat → Nat} {q : Nat → Core ℝ} {th : Nat → ℝ} {y : Nat → V2 ℝ}
  {lam : Nat → ℝ} {t : ℝ} {st : St ℝ} {l : Nat} {R : Nat → List Nat}

theorem OnHeap.rotate {a b : Nat} {A B : List Nat} (h : OnHeap st l R nx q a (A ++ b :: B)) :
    OnHeap st l R nx q b (B ++ a :: A) := by
  have hp : (b :: (B ++ a :: A)).Perm (a :: (A ++ b :: B)) := by
    have := List.perm_append_comm (l₁ := b :: B) (l₂ := a :: A)
    simpa using this
  have hs := h.seg
  rw [seg_append] at hs
  exact ⟨h.loops, h.slav, hp.trans h.perm, seg_append.2 ⟨hs.2, hs.1⟩,
    fun k hk => h.nx k (hp.mem_iff.1 hk), fun k hk => h.co k (hp.mem_iff.1 hk)⟩

theorem OnHeap.mem {a : Nat} {T : List Nat} (h : OnHeap st l R nx q a T) {k : Nat} :
    k ∈ a :: T ↔ st.vd k = some true := by
  have hl : l ∈ st.slav := by rw [h.slav]; simp
  rw [h.perm.mem_iff, h.loops.mem l hl, h.loops.valid k, h.slav]
  simp

theorem OnHeap.nodup {a : Nat} {T : List Nat} (h : OnHeap st l R nx q a T) : (a :: T).Nodup :=
  h.perm.nodup_iff.2 (h.loops.closed l (by rw [h.slav]; simp)).1

/-- the list, from one of its vertices on -/
theorem OnHeap.from {a : Nat} {T : List Nat} (h : OnHeap st l R nx q a T)
    (hf : Front c nx q th y lam t a T) {k : Nat} (hk : k ∈ a :: T) :
    ∃ T', OnHeap st l R nx q k T' ∧ Front c nx q th y lam t k T' ∧ (k :: T').Perm (a :: T) := by
  rcases List.mem_cons.1 hk with rfl | hk
  · exact ⟨T, h, hf, .refl _⟩
  · obtain ⟨A, B, rfl⟩ := List.append_of_mem hk
    refine ⟨_, h.rotate, hf.rotate, ?_⟩
    have := List.perm_append_comm (l₁ := k :: B) (l₂ := a :: A)
    simpa using this

theorem OnHeap.pv {a : Nat} {T : List Nat} (h : OnHeap st l R nx q a T) {k : Nat} (hk : k ∈ a :: T) :
    nx k ∈ a :: T ∧ st.pv (nx k) = some k := by
  have hc := h.loops.closed l (by rw [h.slav]; simp)
  obtain ⟨h1, h2⟩ := hc.nx_mem (h.perm.mem_iff.1 hk) (h.nx k hk)
  exact ⟨h.perm.mem_iff.2 h1, h2⟩

theorem OnHeap.pred {a : Nat} {T : List Nat} (h : OnHeap st l R nx q a T) {k : Nat} (hk : k ∈ a :: T) :
    ∃ p ∈ a :: T, nx p = k := by
  have hc := h.loops.closed l (by rw [h.slav]; simp)
  obtain ⟨p, hp, -, -, hl, -⟩ := hc.nbrs (h.perm.mem_iff.1 hk)
  have hp' := h.perm.mem_iff.2 hp
  refine ⟨p, hp', ?_⟩
  have := (link_iff.1 hl).1
  rw [h.nx p hp'] at this
  simpa using this

theorem OnHeap.inj {a : Nat} {T : List Nat} (h : OnHeap st l R nx q a T) {p p' : Nat}
    (hp : p ∈ a :: T) (hp' : p' ∈ a :: T) (he : nx p = nx p') : p = p' := by
  have h1 := (h.pv hp).2
  have h2 := (h.pv hp').2
  rw [he, h2] at h1
  simpa using h1.symm

theorem eucl_along (p v : V2 ℝ) {s : ℝ} (hs : 0 ≤ s) : eucl p (along p v s) = s * √(v.x ^ 2 + v.y ^ 2) := by
  simp only [eucl, along]
  rw [show (p.x - (p.x + s * v.x)) ^ 2 + (p.y - (p.y + s * v.y)) ^ 2 =
    s ^ 2 * (v.x ^ 2 + v.y ^ 2) by ring, sqrt_mul (by positivity), sqrt_sq hs]

/-- a vertex at its start proposes the event of the neighbour that it meets first -/
theorem OnHeap.nextEvent {a p : Nat} {T : List Nat} (h : OnHeap st l R nx q a (T ++ [p]))
    (hf : Front c nx q th y lam t a (T ++ [p])) (hprop : ∀ e ∈ c, Proper e)
    (hy : y a = (q a).point) :
    ∃ e, nextEvent st a = .ok (some (.edge e)) ∧ EvGood st e ∧
      ((meetTime nx th lam t p ≤ meetTime nx th lam t a ∧ e.a = p ∧ e.b = a) ∨
        (meetTime nx th lam t a ≤ meetTime nx th lam t p ∧ e.a = a ∧ e.b = nx a)) := by
  have h3 := hf.three
  cases T with
  | nil => simp at h3
  | cons n T =>
  have hf1 : Front c nx q th y lam t a (n :: (T ++ [p])) := hf
  have hf2 : Front c nx q th y lam t p (a :: n :: T) := Front.rotate (A := n :: T) (B := []) hf
  have hn : n = nx a := hf1.first.1
  have hpa : nx p = a := hf2.first.1.symm
  have va := hf.vertex a (by simp)
  have vp := hf.vertex p (by simp)
  have vn := hf.vertex n (by simp)
  -- the heap
  have hlt : ∀ k ∈ a :: (n :: T ++ [p]), ∃ v, st.vs[k]? = some v ∧ v.core = q k ∧ v.next = nx k := by
    intro k hk
    obtain ⟨v, hv⟩ := getElem?_of_lt (nx_lt (h.nx k hk))
    obtain ⟨f1, -, -, -, f5⟩ := vs_fields hv
    rw [h.nx k hk] at f1
    rw [h.co k hk] at f5
    exact ⟨v, hv, by simpa using f5.symm, by simpa using f1.symm⟩
  obtain ⟨v, hv, cv, nv⟩ := hlt a (by simp)
  obtain ⟨w, hw, cw, nw⟩ := hlt p (by simp)
  obtain ⟨x, hx, cx, nxx⟩ := hlt n (by simp)
  have hpv : v.prev = p := by
    have := (h.pv (k := p) (by simp)).2
    rw [hpa, (vs_fields hv).2.1] at this
    simpa using this
  have bv : v.bisector = (q a).bisector := congrArg Core.bisector cv
  have bw : w.bisector = (q p).bisector := congrArg Core.bisector cw
  have bx : x.bisector = (q n).bisector := congrArg Core.bisector cx
  have pv : v.point = (q a).point := congrArg Core.point cv
  have epv : v.edgePrev = (q a).edgePrev := congrArg Core.edgePrev cv
  have env : v.edgeNext = (q a).edgeNext := congrArg Core.edgeNext cv
  have hrf : v.reflex = false := by
    rw [show v.reflex = (q a).reflex from congrArg Core.reflex cv]
    exact va.turn.convex
  obtain ⟨r, hr, hnone, hsome⟩ := C50_nextEvent st a v w x hv (by rw [hpv]; exact hw)
    (by rw [nv, ← hn]; exact hx) (by rw [hrf]; simp)
  -- the two candidates
  obtain ⟨np1, X1, u1, w1, o1, o1', hu1, hw1, e1, e1', g1, g1', -⟩ := hf1.meet
  obtain ⟨np2, X2, u2, w2, o2, o2', hu2, hw2, e2, e2', g2, g2', -⟩ := hf2.meet
  have np2' : ¬ Parallel (q a).bisector.v (q p).bisector.v := by
    intro hc; apply np2; simp only [Parallel] at hc ⊢; linarith
  have cand1 : Cand st a v w x (.edge ⟨(Line2.ofEdge v.edgeNext).distance X1, X1, a, v.next⟩) := by
    refine .next ⟨?_, ?_, ?_, rfl, rfl, rfl⟩
    · rw [bv, bx]; exact np1
    · rw [bv]; exact o1
    · rw [bx]; exact o1'
  have cand2 : Cand st a v w x (.edge ⟨(Line2.ofEdge v.edgePrev).distance X2, X2, v.prev, a⟩) := by
    refine .prev ⟨?_, ?_, ?_, rfl, rfl, rfl⟩
    · rw [bv, bw]; exact np2'
    · rw [bv]; exact o2'
    · rw [bw]; exact o2
  have hbis : 0 < √((q a).bisector.v.x ^ 2 + (q a).bisector.v.y ^ 2) := by
    apply sqrt_pos.2
    by_contra hc
    apply np1
    have z1 : (q a).bisector.v.x = 0 := by nlinarith [sq_nonneg (q a).bisector.v.x, sq_nonneg (q a).bisector.v.y]
    have z2 : (q a).bisector.v.y = 0 := by nlinarith [sq_nonneg (q a).bisector.v.x, sq_nonneg (q a).bisector.v.y]
    simp [Parallel, z1, z2]
  have d1 : eucl v.point X1 = u1 * √((q a).bisector.v.x ^ 2 + (q a).bisector.v.y ^ 2) := by
    rw [pv, ← hy, e1]
    exact eucl_along _ _ hu1
  have d2 : eucl v.point X2 = w2 * √((q a).bisector.v.x ^ 2 + (q a).bisector.v.y ^ 2) := by
    rw [pv, ← hy, e2']
    exact eucl_along _ _ hw2
  rw [hn] at g1
  have tm1 : meetTime nx th lam t a = t + gain (lam a) (th a) (th (nx a)) := rfl
  have tm2 : meetTime nx th lam t p = t + gain (lam p) (th p) (th a) := by rw [meetTime, hpa]
  have hbig : π ≤ th a → gain (lam a) (th a) (th (nx a)) = 0 ∧ gain (lam p) (th p) (th a) = 0 := by
    intro hc
    exact ⟨by rw [gain, if_pos (Or.inr (Or.inl hc))], by rw [gain, if_pos (Or.inr (Or.inr hc))]⟩
  cases r with
  | none => exact absurd cand1 (hnone.1 rfl _)
  | some e =>
    obtain ⟨hc, Z, hat, hon, hmin⟩ := hsome e rfl
    cases hc with
    | split oe h' => rw [hrf] at h'; cases h'
    | @prev e h' =>
      obtain ⟨-, i1, i2, i3, i4, i5⟩ := h'
      have hZ : e.pt = X2 := onLin_unique np2' (by rw [← bv]; exact i1) (by rw [← bw]; exact i2) o2' o2
      have hle := hmin _ cand1 X1 rfl
      rw [show Z = X2 from (hat : Z = e.pt).trans hZ, d1, d2] at hle
      have hle' := le_of_mul_le_mul_right hle hbis
      refine ⟨e, hr, ⟨q p, q a, by rw [i4, hpv]; exact h.co p (by simp), by rw [i5]; exact h.co a (by simp),
        by rw [hZ]; exact o2, by rw [hZ]; exact o2', ?_⟩, Or.inl ⟨?_, by rw [i4, hpv], i5⟩⟩
      · rw [i3, epv, distance_hgt (hprop _ va.prev), hf2.first.2.1]
      · rw [tm1, tm2]
        by_cases hpi : π ≤ th a
        · rw [(hbig hpi).1, (hbig hpi).2]
        · have := sin_pos_of_pos_of_lt_pi va.pos (not_le.1 hpi)
          rw [← g1, ← g2']
          have := mul_le_mul_of_nonneg_right hle' this.le
          linarith
    | @next e h' =>
      obtain ⟨-, i1, i2, i3, i4, i5⟩ := h'
      have hZ : e.pt = X1 := onLin_unique np1 (by rw [← bv]; exact i1) (by rw [← bx]; exact i2) o1 o1'
      have hle := hmin _ cand2 X2 rfl
      rw [show Z = X1 from (hat : Z = e.pt).trans hZ, d1, d2] at hle
      have hle' := le_of_mul_le_mul_right hle hbis
      refine ⟨e, hr, ⟨q a, q n, by rw [i4]; exact h.co a (by simp), by
          rw [i5, nv, ← hn]; exact h.co n (by simp),
        by rw [hZ]; exact o1, by rw [hZ]; exact o1', ?_⟩, Or.inr ⟨?_, i4, by rw [i5, nv]⟩⟩
      · rw [i3, env, distance_hgt (hprop _ va.next)]
      · rw [tm1, tm2]
        by_cases hpi : π ≤ th a
        · rw [(hbig hpi).1, (hbig hpi).2]
        · have := sin_pos_of_pos_of_lt_pi va.pos (not_le.1 hpi)
          rw [← g1, ← g2']
          have := mul_le_mul_of_nonneg_right hle' this.le
          linarith

/-- the events of two neighbours have the time of their meeting -/
theorem OnHeap.dist {a b : Nat} {T : List Nat} (h : OnHeap st l R nx q a (b :: T))
    (hf : Front c nx q th y lam t a (b :: T)) {e : EdgeEv ℝ} (he : EvGood st e) (ha : e.a = a)
    (hb : e.b = b) : OnLin (q a).bisector e.pt ∧ OnLin (q b).bisector e.pt ∧
      e.dist = meetTime nx th lam t a := by
  obtain ⟨qa, qb, h1, h2, h3, h4, h5⟩ := he
  rw [ha, h.co a (by simp)] at h1
  rw [hb, h.co b (by simp)] at h2
  simp only [Option.some.injEq] at h1 h2
  subst h1
  subst h2
  refine ⟨h3, h4, ?_⟩
  rw [h5, (hf.event h3 h4).2.1, abs_of_nonneg]
  have := hf.meetTime_ge (k := a) (by simp)
  linarith [hf.time]

theorem EvGood.mono {st st' : St ℝ} (h : ∀ k x, st.co k = some x → st'.co k = some x) {e : EdgeEv ℝ}
    (he : EvGood st e) : EvGood st' e := by
  obtain ⟨qa, qb, h1, h2, h3⟩ := he
  exact ⟨qa, qb, h _ _ h1, h _ _ h2, h3⟩

/-- the sinks of a peak event are vertices of the loop -/
theorem handleEdge_peak_sinks {st st' : St ℝ} {R : Nat → List Nat} (h : Loops st R) {ev : EdgeEv ℝ}
    {l : Nat} {va vb : Vtx ℝ} (hl : l ∈ st.slav) (ha : ev.a ∈ R l)
    (hva : st.vs[ev.a]? = some va) (hvb : st.vs[ev.b]? = some vb) (hpk : va.prev = vb.next)
    {arcs : List (Subtree ℝ)} {es : List (Event ℝ)} (he : handleEdge st ev = .ok (st', arcs, es)) :
    ∃ ks, ks.Perm (R l) ∧ ∀ x ∈ arcs,
      List.Forall₂ (fun k s => ∃ w, st.co k = some w ∧ w.point = s) ks x.sinks := by
  obtain ⟨-, -, hla, -, -⟩ := vs_fields hva
  have hlav : va.lav = some l := by
    have := (h.mem l hl _).1 ha
    rw [hla] at this
    simpa using this
  obtain ⟨vs, hvs, hvp, hvc⟩ := h.listLav hl
  unfold handleEdge at he
  rw [getV_ok.2 hva, ok_bind, getV_ok.2 hvb, ok_bind, if_pos hpk, hlav, removeLav_ok hl, ok_bind] at he
  simp only at he
  have hvs' : Polyskel.listLav { st with slav := st.slav.erase l } l = .ok vs := by
    rw [listLav_ok] at hvs ⊢
    exact hvs
  rw [hvs', ok_bind] at he
  obtain ⟨sinks, hs, he⟩ := bind_ok.1 he
  obtain ⟨s, -, he⟩ := bind_ok.1 he
  simp only [pure_ok, Except.ok.injEq, Prod.mk.injEq] at he
  obtain ⟨-, rfl, -⟩ := he
  refine ⟨vs, hvp, fun x hx => ?_⟩
  simp only [List.mem_singleton] at hx
  subst hx
  refine (mapM_ok hs).imp (fun k s' hg => ?_)
  obtain ⟨w, hw, hp⟩ := bind_ok.1 hg
  simp only [pure_ok, Except.ok.injEq] at hp
  have hw' : st.vs[k]? = some w := getV_ok.1 hw
  exact ⟨w.core, (vs_fields hw').2.2.2.2, hp⟩

theorem unify_index {S : Type} [Scalar S] {st st' : St S} {l a b r : Nat} {p : V2 S}
    (hr : unify st l a b p = .ok (st', r)) : r = st.vs.length := by
  unfold unify at hr
  obtain ⟨va, hva, hr⟩ := bind_ok.1 hr
  obtain ⟨vb, hvb, hr⟩ := bind_ok.1 hr
  simp only at hr
  obtain ⟨o, ho, hr⟩ := bind_ok.1 hr
  obtain ⟨va', hva', hr⟩ := bind_ok.1 hr
  obtain ⟨vb', hvb', hr⟩ := bind_ok.1 hr
  obtain ⟨va'', hva'', hr⟩ := bind_ok.1 hr
  obtain ⟨vb'', hvb'', hr⟩ := bind_ok.1 hr
  obtain ⟨s1, hs1, hr⟩ := bind_ok.1 hr
  obtain ⟨s2, hs2, hr⟩ := bind_ok.1 hr
  simp only [pure_ok, Except.ok.injEq, Prod.mk.injEq] at hr
  exact hr.2.symm

/-- the new vertex proposes its event -/
theorem handleEdge_unify_event {S : Type} [Scalar S] {st st' : St S} {ev : EdgeEv S} {va vb : Vtx S}
    (hva : st.vs[ev.a]? = some va) (hvb : st.vs[ev.b]? = some vb) (hpk : va.prev ≠ vb.next)
    {arcs : List (Subtree S)} {es : List (Event S)} (he : handleEdge st ev = .ok (st', arcs, es)) :
    ∃ r, Polyskel.nextEvent st' st.vs.length = .ok r ∧ es = r.toList := by
  unfold handleEdge at he
  rw [getV_ok.2 hva, ok_bind, getV_ok.2 hvb, ok_bind, if_neg hpk] at he
  split at he
  · cases he
  · obtain ⟨⟨s, r⟩, hu, h⟩ := bind_ok.1 he
    obtain ⟨o, -, h⟩ := bind_ok.1 h
    obtain ⟨ne, hne, h⟩ := bind_ok.1 h
    simp only [pure_ok, Except.ok.injEq, Prod.mk.injEq] at h
    obtain ⟨rfl, -, rfl⟩ := h
    have hi := unify_index hu
    subst hi
    exact ⟨ne, hne, rfl⟩

/-- the first of two neighbours that meet -/
theorem Front.rise₁ {a b : Nat} {T : List Nat} (h : Front c nx q th y lam t a (b :: T)) {X : V2 ℝ}
    {t' : ℝ} (h1 : OnLin (q a).bisector X) (h2 : OnLin (q b).bisector X)
    (h3 : hgt (q a).edgePrev X = t') (h4 : hgt (q a).edgeNext X = t') : Rise (q a) (th a) X t' := by
  obtain ⟨hp, X', u, w, g1, g2, hu, hw, e1, e2, -⟩ := h.meet
  obtain rfl := onLin_unique hp h1 h2 g1 g2
  have va := h.vertex a (by simp)
  obtain ⟨s, hs, hy⟩ := va.on
  exact ⟨va.turn, va.pos, ⟨s + u, by linarith, by rw [e1, hy, along_along]⟩, h3, h4⟩

/-- the second of two neighbours that meet -/
theorem Front.rise₂ {a b : Nat} {T : List Nat} (h : Front c nx q th y lam t a (b :: T)) {X : V2 ℝ}
    {t' : ℝ} (h1 : OnLin (q a).bisector X) (h2 : OnLin (q b).bisector X)
    (h3 : hgt (q b).edgePrev X = t') (h4 : hgt (q b).edgeNext X = t') : Rise (q b) (th b) X t' := by
  obtain ⟨hp, X', u, w, g1, g2, hu, hw, e1, e2, -⟩ := h.meet
  obtain rfl := onLin_unique hp h1 h2 g1 g2
  have vb := h.vertex b (by simp)
  obtain ⟨s, hs, hy⟩ := vb.on
  exact ⟨vb.turn, vb.pos, ⟨s + w, by linarith, by rw [e2, hy, along_along]⟩, h3, h4⟩

/-- The invariant: `es` are the events of the batch that are still to be handled. -/
structure SweepRun (c : List (Edge2 ℝ)) (lp : Loop ℝ) (es : List (Event ℝ)) : Prop where
  run : ConvexRun c.length lp es
  heap : ∃ ins out, Hist evLt lp.queue ins out
  sorted : es.Pairwise (fun a b => a.dist ≤ b.dist)
  good : ∀ e, Event.edge e ∈ es ++ lp.queue → EvGood lp.st e
  arcs : ∀ a ∈ lp.out, RoofArc c a
  wave : (lp.st.slav = [] ∧ lp.out.length + 2 = c.length ∧ ∃ ch, Grown c lp.st lp.out ch []) ∨
    ∃ l R nx q th y lam t a T,
    OnHeap lp.st l R nx q a T ∧ Front c nx q th y lam t a T ∧
    Awaited nx (meetTime nx th lam t) (es ++ lp.queue) (a :: T) ∧
    lp.out.length + (a :: T).length = c.length ∧ ∃ ch, Grown c lp.st lp.out ch (a :: T)

theorem handleEvent_none {st : St ℝ} {e : EdgeEv ℝ} (h : handleEvent st (.edge e) = .ok none) :
    ¬ Live st (.edge e) := by
  rintro ⟨va, vb, h1, h2, h3, h4⟩
  unfold handleEvent at h
  simp only [getV_ok.2 h1, getV_ok.2 h2, ok_bind, h3, h4] at h
  simp only [Bool.not_true, Bool.or_self, Bool.false_eq_true, if_false] at h
  obtain ⟨o, -, h⟩ := bind_ok.1 h
  simp at h

theorem OnHeap.live {a : Nat} {T : List Nat} (h : OnHeap st l R nx q a T) {e : EdgeEv ℝ}
    (h1 : e.a ∈ a :: T) (h2 : e.b ∈ a :: T) : Live st (.edge e) := by
  obtain ⟨va, hva⟩ := getElem?_of_lt (nx_lt (h.nx _ h1))
  obtain ⟨vb, hvb⟩ := getElem?_of_lt (nx_lt (h.nx _ h2))
  have f1 := h.mem.1 h1
  have f2 := h.mem.1 h2
  rw [(vs_fields hva).2.2.2.1] at f1
  rw [(vs_fields hvb).2.2.2.1] at f2
  exact ⟨va, vb, hva, hvb, by simpa using f1, by simpa using f2⟩

/-- the event of two neighbours whose turn it is, is that of a first meeting -/
theorem OnHeap.first {a : Nat} {T : List Nat} (h : OnHeap st l R nx q a T)
    (hf : Front c nx q th y lam t a T) {evs : List (Event ℝ)}
    (hc : Awaited nx (meetTime nx th lam t) evs (a :: T)) (hg : ∀ e, Event.edge e ∈ evs → EvGood st e)
    {d : ℝ} (hd : ∀ e ∈ evs, Live st e → d ≤ e.dist) :
    ∀ k ∈ a :: T, d ≤ meetTime nx th lam t k := by
  obtain ⟨p, hp, ⟨e, he, e1, e2⟩, hmin⟩ := hc.min (by simp) (fun k hk => (h.pv hk).1)
    (fun k hk => h.pred hk) (fun p hp p' hp' => h.inj hp hp')
  have hl : Live st (.edge e) := h.live (by rw [e1]; exact hp) (by rw [e2]; exact (h.pv hp).1)
  have h1 := hd _ he hl
  obtain ⟨T', hT', hfT', -⟩ := h.from hf hp
  have h3 := hfT'.three
  cases T' with
  | nil => simp at h3
  | cons b T' =>
    have := (hT'.dist hfT' (hg e he) e1 (by rw [e2, hfT'.first.1])).2.2
    intro k hk
    have hk' := hmin k hk
    rw [← this] at hk'
    exact le_trans h1 hk'

set_option maxHeartbeats 1000000 in
/-- Handling an event keeps the invariant, provided no live event in the queue is due before it. -/
theorem stepEvent_sweep {lp : Loop ℝ} {e : Event ℝ} {es : List (Event ℝ)}
    (hprop : ∀ e ∈ c, Proper e) (h : SweepRun c lp (e :: es))
    (hord : Live lp.st e → ∀ e' ∈ lp.queue, Live lp.st e' → e.dist ≤ e'.dist) :
    ∃ lp', stepEvent lp e = .ok lp' ∧ SweepRun c lp' es ∧
      ∀ x ∈ lp'.queue, x ∈ lp.queue ∨ e.dist ≤ x.dist := by
  obtain ⟨⟨⟨e', rfl⟩, hap, -⟩, lp', hs, hrun⟩ := stepEvent_convex h.run
  refine ⟨lp', hs, ?_⟩
  have hsort := List.pairwise_cons.1 h.sorted
  have hsub : ∀ x, Event.edge x ∈ es ++ lp.queue → Event.edge x ∈ Event.edge e' :: es ++ lp.queue :=
    fun x hx => by simp only [List.cons_append, List.mem_cons]; exact Or.inr hx
  unfold stepEvent at hs
  obtain ⟨r, hr, hs⟩ := bind_ok.1 hs
  cases r with
  | none =>
    simp only [pure_ok, Except.ok.injEq] at hs
    subst hs
    refine ⟨⟨hrun, h.heap, hsort.2, fun x hx => h.good x (hsub x hx), h.arcs, ?_⟩,
      fun x hx => Or.inl hx⟩
    rcases h.wave with hw | ⟨l, R, nx, q, th, y, lam, t, a, T, hh, hf, hc, hn⟩
    · exact Or.inl hw
    · refine Or.inr ⟨l, R, nx, q, th, y, lam, t, a, T, hh, hf, ?_, hn⟩
      refine hc.mono (fun _ _ => rfl) (fun k hk => (hh.pv hk).1) ?_
      rintro k hk ⟨x, hx, x1, x2⟩
      simp only [List.cons_append, List.mem_cons, Event.edge.injEq] at hx
      rcases hx with rfl | hx
      · exact absurd (hh.live (by rw [x1]; exact hk) (by rw [x2]; exact (hh.pv hk).1))
          (handleEvent_none hr)
      · exact ⟨x, hx, x1, x2⟩
  | some r =>
    obtain ⟨st', arcs, evs⟩ := r
    simp only [pure_ok, Except.ok.injEq] at hs
    subst hs
    rcases handleEvent_cases hr with ⟨e2, va, vb, heq, hva, hvb, h1, h2, he⟩ |
      ⟨e, v, heq, -⟩ | ⟨d, p, e0, e1, e2, v0, v1, heq, -⟩
    swap
    · cases heq
    swap
    · cases heq
    simp only [Event.edge.injEq] at heq
    subst heq
    have hlive : Live lp.st (.edge e') := ⟨va, vb, hva, hvb, h1, h2⟩
    obtain ⟨hna, hpa, hla, hda, hca⟩ := vs_fields hva
    obtain ⟨hnb, hpb, hlb, hdb, hcb⟩ := vs_fields hvb
    rcases h.wave with ⟨hw, -⟩ | ⟨l, R, nx, q, th0, y0, lam0, t0, a0, T0, hh0, hf0, hc0, hn0, ch, hgr⟩
    · exfalso
      obtain ⟨R, t, hL, -⟩ := h.run.wave
      obtain ⟨l, hl, -⟩ := hL.lavOf hva h1
      rw [hw] at hl
      simp at hl
    have ham0 : e'.a ∈ a0 :: T0 := hh0.mem.2 (by rw [hda, h1])
    have hlk := link_iff.1 (hap va vb hva hvb h1 h2)
    -- the first meeting
    have hfirst := hh0.first hf0 hc0 h.good (d := e'.dist) (by
      intro x hx hx'
      simp only [List.cons_append, List.mem_cons, List.mem_append] at hx
      rcases hx with rfl | hx | hx
      · exact le_rfl
      · exact hsort.1 x hx
      · exact hord hlive x hx hx')
    obtain ⟨T1, hh1, hf1, hp1⟩ := hh0.from hf0 ham0
    have h3 := hf1.three
    obtain ⟨b, T, rfl⟩ : ∃ b T, T1 = b :: T := by
      cases T1 with
      | nil => simp at h3
      | cons b T => exact ⟨b, T, rfl⟩
    obtain rfl : b = e'.b := by
      have := hh1.nx e'.a (by simp)
      rw [hlk.1] at this
      rw [hf1.first.1]
      simpa using this.symm
    obtain ⟨hX1, hX2, hdist⟩ := hh1.dist hf1 (h.good e' (by simp)) rfl rfl
    -- move on to its time
    have hfirst1 : ∀ k ∈ e'.a :: e'.b :: T, e'.dist ≤ meetTime nx th0 lam0 t0 k :=
      fun k hk => hfirst k (hp1.mem_iff.1 hk)
    obtain ⟨y, lam, hf, htm⟩ := hf1.advance (t' := e'.dist)
      (by rw [hdist]; exact hf1.meetTime_ge (by simp)) hfirst1
    have hc1 : Awaited nx (meetTime nx th0 lam e'.dist) (.edge e' :: es ++ lp.queue)
        (e'.a :: e'.b :: T) := by
      intro k hk
      rw [htm k hk, htm _ (hh1.pv hk).1]
      exact hc0 k (hp1.mem_iff.1 hk)
    have hg : gain (lam e'.a) (th0 e'.a) (th0 e'.b) = 0 := by
      have := htm e'.a (by simp)
      rw [← hdist, meetTime, ← hf1.first.1] at this
      linarith
    have hqa : va.core = q e'.a := by
      have := hh1.co e'.a (by simp)
      rw [hca] at this
      simpa using this
    have hqb : vb.core = q e'.b := by
      have := hh1.co e'.b (by simp)
      rw [hcb] at this
      simpa using this
    have hlen : (e'.a :: e'.b :: T).length = (a0 :: T0).length := hp1.length_eq
    have hll : l ∈ lp.st.slav := by rw [hh1.slav]; simp
    have haR : e'.a ∈ R l := hh1.perm.mem_iff.1 (by simp)
    have hlt2 : ∀ k ∈ e'.a :: e'.b :: T, th0 k < 2 * π := by
      intro k hk
      obtain ⟨-, T', hT', -⟩ := hf.next_mem hk
      have := hT'.sum_lt.1
      have := (hT'.vertex _ (List.mem_cons_of_mem _ List.mem_cons_self)).pos
      linarith
    by_cases hpk : va.prev = vb.next
    · -- the end
      obtain ⟨st2, sinks, he2, hL2, hR3, -, sl2, len2, co2, -⟩ :=
        handleEdge_peak hh1.loops hll haR hlk.1 hva hvb hpk
      obtain ⟨ks, hks, hsk⟩ := handleEdge_peak_sinks hh1.loops hll haR hva hvb hpk he
      rw [he2] at he
      simp only [Except.ok.injEq, Prod.mk.injEq] at he
      obtain ⟨rfl, rfl, rfl⟩ := he
      obtain ⟨d, rfl⟩ : ∃ d, T = [d] := by
        have := hh1.perm.length_eq
        rw [hR3] at this
        simp only [List.length_cons] at this
        exact List.length_eq_one_iff.1 (by omega)
      obtain ⟨hXy, hX3, hXp, hXn⟩ := hf.peak hg hX1 hX2
      have hin : ∀ x ∈ c, e'.dist ≤ hgt x e'.pt := by
        rcases hXy with hxy | hxy
        · rw [hxy]; exact (hf.vertex e'.a (by simp)).inside
        · rw [hxy]; exact (hf.vertex e'.b (by simp)).inside
      have hev := hf.event hX1 hX2
      rw [htm e'.a (by simp), ← hdist] at hev
      refine ⟨⟨hrun, ?_, hsort.2, ?_, ?_, Or.inl ⟨?_, ?_, ?_⟩⟩, fun x hx => Or.inl (by
        simpa [putAll] using hx)⟩
      · simpa [putAll] using h.heap
      · intro x hx
        refine (h.good x (hsub x ?_)).mono (fun k w hk => by rw [co2]; exact hk)
        simpa [putAll] using hx
      · intro x hx
        rcases List.mem_append.1 hx with hx | hx
        · exact h.arcs x hx
        · have hsx := hsk x hx
          simp only [List.mem_singleton] at hx
          subst hx
          refine ⟨hf.node hX1 hX2 hg hin, fun s hs u hu0 hu1 => ?_⟩
          obtain ⟨k, hk, w, hw, rfl⟩ := forall₂_mem_right hsx hs
          replace hk := hks.mem_iff.1 hk
          have hk' := hh1.perm.mem_iff.2 hk
          have hw' := hh1.co k hk'
          rw [hw] at hw'
          simp only [Option.some.injEq] at hw'
          subst hw'
          have hv := hf.vertex k hk'
          simp only [List.mem_cons, List.not_mem_nil, or_false] at hk'
          rcases hk' with rfl | rfl | rfl
          · exact hv.ridge (hlt2 _ (by simp)) hev.1 hev.2.1 hin hu0 hu1
          · exact hv.ridge (hlt2 _ (by simp)) (by rw [← hf.first.2.1]; exact hev.2.1) hev.2.2 hin hu0 hu1
          · exact hv.ridge (hlt2 _ (by simp)) hXp hXn hin hu0 hu1
      · rw [sl2, hh1.slav]; simp
      · simp only [List.length_append, List.length_cons, List.length_nil] at hlen ⊢
        simp only [List.length_cons] at hn0
        omega
      · refine hgr.close (by simp) ((hks.trans hh1.perm.symm).trans hp1)
          (fun k w hk => by rw [co2]; exact hk) len2 ?_
        have hb := Front.rotate (A := []) hf
        have hl := (Front.last (T := [e'.b]) hf)
        refine ⟨e'.a, e'.b, d, q e'.a, q e'.b, q d, th0 e'.a, th0 e'.b, th0 d,
          hks.trans hh1.perm.symm, ?_, ?_, ?_, ?_, ?_, ?_, ?_, ?_, hf.first.2.1, hb.first.2.1, ?_⟩
        · rw [co2]; exact hh1.co _ (by simp)
        · rw [co2]; exact hh1.co _ (by simp)
        · rw [co2]; exact hh1.co _ (by simp)
        · rw [co2]; exact hsk _ (by simp)
        · exact hf.rise₁ hX1 hX2 hev.1 hev.2.1
        · exact hf.rise₂ hX1 hX2 (by rw [← hf.first.2.1]; exact hev.2.1) hev.2.2
        · exact hb.rise₂ hX2 hX3 hXp hXn
        · have := hf.total
          simpa [add_assoc] using this
        · exact (Front.rotate (A := []) hb).first.2.1
    · -- two vertices become one
      obtain ⟨n, P, p, rfl⟩ : ∃ n P p, T = n :: (P ++ [p]) := by
        cases T with
        | nil => simp at h3
        | cons n T =>
          rcases List.eq_nil_or_concat T with rfl | ⟨P, p, rfl⟩
          · exfalso
            have hs := seg_cons.1 (seg_cons.1 hh1.seg).2
            have f1 := (link_iff.1 hs.1).1
            have f2 := (link_iff.1 (seg_nil.1 hs.2)).2
            rw [hnb] at f1
            rw [hpa] at f2
            simp only [Option.some.injEq] at f1 f2
            exact hpk (f2.trans f1.symm)
          · exact ⟨n, P, p, by simp⟩
      have hd := hh1.nodup
      have hseg : Seg lp.st e'.b (n :: (P ++ [p])) e'.a := (seg_cons.1 hh1.seg).2
      have hvn : vb.next = n := by
        have f1 := (link_iff.1 (seg_cons.1 hseg).1).1
        rw [hnb] at f1
        simpa using f1
      have hvp : va.prev = p := by
        have f1 := seg_last hseg
        rw [hpa, ← List.cons_append, ← List.cons_append, List.getLast?_append] at f1
        simpa using f1
      obtain ⟨st2, es2, P0, he2, hp2, hL2, sl2, len2, -, -, nx2, pv2, vd2, co2⟩ :=
        handleEdge_unify hh1.loops hll haR hlk.1 hva hvb hpk
      obtain ⟨r0, hne, hes⟩ := handleEdge_unify_event hva hvb hpk he
      rw [he2] at he
      simp only [Except.ok.injEq, Prod.mk.injEq] at he
      obtain ⟨rfl, rfl, rfl⟩ := he
      rw [hvn, hvp] at nx2 pv2
      have hltN : ∀ k ∈ e'.a :: e'.b :: n :: (P ++ [p]), k < lp.st.vs.length :=
        fun k hk => nx_lt (hh1.nx k hk)
      generalize hN : lp.st.vs.length = N at *
      have hNk : ∀ k ∈ n :: (P ++ [p]), k ≠ N := fun k hk =>
        (hltN k (List.mem_cons_of_mem _ (List.mem_cons_of_mem _ hk))).ne
      have hd2 : (n :: (P ++ [p])).Nodup := (List.nodup_cons.1 (List.nodup_cons.1 hd).2).2
      have hkp : ∀ k ∈ n :: P, k ≠ p := by
        rintro k hk rfl
        have : (n :: P ++ [k]).Nodup := hd2
        exact (List.nodup_append.1 this).2.2 _ hk _ (by simp) rfl
      have hnp' : n ≠ p := hkp n (by simp)
      have hs2 : Seg st2 N (n :: (P ++ [p])) N := by
        refine seg_splice (p := n) (q := p) hseg hd2 rfl ?_ ?_ ?_ ?_ ?_ ?_ ?_
        · rw [← List.cons_append, List.getLast?_append]; simp
        · rw [nx2]; simp
        · rw [pv2, if_neg (hNk n (by simp))]; simp
        · rw [nx2, if_neg (hNk p (by simp))]; simp
        · rw [pv2]; simp
        · intro k hk hkp
          rw [nx2, if_neg (hNk k hk), if_neg hkp]
        · intro k hk hkp
          rw [pv2, if_neg (hNk k hk), if_neg hkp]
      have hperm2 : (N :: n :: (P ++ [p])).Perm (N :: P0) := by
        have := hh1.perm.trans hp2.symm
        exact ((List.perm_cons _).1 ((List.perm_cons _).1 this)).cons _
      let nx' : Nat → Nat := fun k => if k = N then n else if k = p then N else nx k
      let q' : Nat → Core ℝ := fun k => if k = N then unifyCore va vb e'.pt else q k
      have hh2 : OnHeap st2 l (fun l' => if l' = l then N :: P0 else R l') nx' q' N
          (n :: (P ++ [p])) := by
        refine ⟨hL2, by rw [sl2, hh1.slav], by simpa using hperm2, hs2, ?_, ?_⟩
        · intro k hk
          rw [nx2]
          simp only [nx']
          split
          · rfl
          · split
            · rfl
            · rename_i g1 g2
              refine hh1.nx k ?_
              rcases List.mem_cons.1 hk with hk | hk
              · exact absurd hk g1
              · exact List.mem_cons_of_mem _ (List.mem_cons_of_mem _ hk)
        · intro k hk
          rw [co2]
          simp only [q']
          split
          · rfl
          · rename_i g1
            refine hh1.co k ?_
            rcases List.mem_cons.1 hk with hk | hk
            · exact absurd hk g1
            · exact List.mem_cons_of_mem _ (List.mem_cons_of_mem _ hk)
      have hva' := hf.vertex e'.a (by simp)
      have hvb' := hf.vertex e'.b (by simp)
      have hturn : TurnsBy (unifyCore va vb e'.pt) (th0 e'.a + th0 e'.b) := by
        refine unify_turnsBy (by rw [hqa]; exact hva'.turn) (by rw [hqb]; exact hvb'.turn) ?_
          hf.sum_lt.1.le e'.pt
        have := hf.first.2.1
        rw [← hqa, ← hqb] at this
        exact this
      obtain ⟨th', y', lam', hf2, hy2, hT1, hT2, hT3⟩ := hf.merge (N := N) (X := e'.pt) (nx' := nx')
        (q' := q') (r := unifyCore va vb e'.pt) hd (fun hk => (hltN N hk).ne rfl) hg hX1 hX2 hturn
        (by rw [← hqa]; rfl) (by rw [← hqb]; rfl) rfl rfl (by simp [q'])
        (fun k hk => by simp only [q']; rw [if_neg (hNk k hk)])
        (by simp [nx']) (by simp only [nx']; rw [if_neg (hNk p (by simp))]; simp)
        (fun k hk => by
          simp only [nx']
          rw [if_neg (hNk k (by
            simp only [List.mem_cons, List.mem_append] at hk ⊢; tauto)), if_neg (hkp k hk)])
      obtain ⟨e1, hne1, hg1, hcase⟩ := OnHeap.nextEvent (T := n :: P) hh2 hf2 hprop
        (by rw [hy2]; simp only [q', if_pos]; rfl)
      rw [hne] at hne1
      simp only [Except.ok.injEq] at hne1
      subst hne1
      simp only [Option.toList_some] at hes
      subst hes
      have hmemq : ∀ x, x ∈ putAll lp.queue [Event.edge e1] ↔ x ∈ lp.queue ∨ x = .edge e1 := by
        intro x
        rw [(C08_putAll_perm _ _).mem_iff]
        simp
      have hco : ∀ k x, lp.st.co k = some x → st2.co k = some x := by
        intro k x hk
        have : k ≠ N := by
          rintro rfl
          have : lp.st.vs[k]? = none := List.getElem?_eq_none hN.le
          simp [St.co, this] at hk
        rw [co2, if_neg this]
        exact hk
      have hev := hf.event hX1 hX2
      rw [htm e'.a (by simp), ← hdist] at hev
      have hin : ∀ x ∈ c, e'.dist ≤ hgt x e'.pt := by
        have := (hf2.vertex N (by simp)).inside
        rwa [hy2] at this
      obtain ⟨ins, out, hhist⟩ := h.heap
      refine ⟨⟨hrun, ⟨_, _, putAll_hist _ _ _ _ hhist⟩, hsort.2, ?_, ?_, Or.inr ?_⟩, ?_⟩
      · intro x hx
        rcases List.mem_append.1 hx with hx | hx
        · exact (h.good x (hsub x (by simp [hx]))).mono hco
        · rcases (hmemq _).1 hx with hx | hx
          · exact (h.good x (hsub x (by simp [hx]))).mono hco
          · simp only [Event.edge.injEq] at hx
            subst hx
            exact hg1
      · intro x hx
        rcases List.mem_append.1 hx with hx | hx
        · exact h.arcs x hx
        · simp only [List.mem_singleton] at hx
          subst hx
          refine ⟨hf.node hX1 hX2 hg hin, fun s hs u hu0 hu1 => ?_⟩
          simp only [List.mem_cons, List.not_mem_nil, or_false] at hs
          rcases hs with rfl | rfl
          · have : va.point = (q e'.a).point := by rw [← hqa]; rfl
            rw [this]
            exact hva'.ridge (hlt2 _ (by simp)) hev.1 hev.2.1 hin hu0 hu1
          · have : vb.point = (q e'.b).point := by rw [← hqb]; rfl
            rw [this]
            exact hvb'.ridge (hlt2 _ (by simp)) (by rw [← hf.first.2.1]; exact hev.2.1) hev.2.2 hin
              hu0 hu1
      · refine ⟨l, _, nx', q', th', y', lam', e'.dist, N, n :: (P ++ [p]), hh2, hf2, ?_, ?_, ?_⟩
        · have hnxb : nx e'.b = n := by
            have := hh1.nx e'.b (by simp)
            rw [hnb, hvn] at this
            simpa using this.symm
          have hnxk : ∀ k ∈ n :: P, nx k ∈ P ++ [p] := by
            intro k hk
            have hch : (n :: P ++ [p]).IsChain (FStep nx q th0 y lam) :=
              List.IsChain.infix hf.chain ⟨[e'.a, e'.b], [e'.a], by simp⟩
            have := chain_next hch hk
            rcases List.mem_cons.1 this with g | g
            · exfalso
              have hkm : k ∈ n :: (P ++ [p]) := by
                simp only [List.mem_cons, List.mem_append] at hk ⊢; tauto
              have := hh1.inj (List.mem_cons_of_mem _ (List.mem_cons_of_mem _ hkm))
                (List.mem_cons_of_mem e'.a List.mem_cons_self) (g.trans hnxb.symm)
              subst this
              exact (List.nodup_cons.1 (List.nodup_cons.1 hd).2).1 hkm
            · exact g
          refine hc1.merge hd hltN hnxb hnxk (by simp [nx'])
            (by simp only [nx']; rw [if_neg (hNk p (by simp))]; simp) ?_ hT1 hT2 hT3 ?_ ?_
          · intro k hk
            simp only [nx']
            rw [if_neg (hNk k (by
              simp only [List.mem_cons, List.mem_append] at hk ⊢; tauto)), if_neg (hkp k hk)]
          · rintro k hk ⟨x, hx, x1, x2⟩
            refine ⟨x, ?_, x1, x2⟩
            simp only [List.cons_append, List.mem_cons, List.mem_append, Event.edge.injEq] at hx
            rw [List.mem_append, hmemq]
            rcases hx with rfl | hx | hx
            · exfalso
              rw [x1] at hd
              exact (List.nodup_cons.1 hd).1 (by
                simp only [List.mem_cons, List.mem_append] at hk ⊢; tauto)
            · exact Or.inl hx
            · exact Or.inr (Or.inl hx)
          · rcases hcase with ⟨g1, g2, g3⟩ | ⟨g1, g2, g3⟩
            · exact Or.inl ⟨g1, e1, List.mem_append.2 (Or.inr ((hmemq _).2 (Or.inr rfl))), g2, g3⟩
            · exact Or.inr ⟨g1, e1, List.mem_append.2 (Or.inr ((hmemq _).2 (Or.inr rfl))), g2,
                by rw [g3]; simp [nx']⟩
        · simp only [List.length_append, List.length_cons, List.length_nil] at hlen hn0 ⊢
          omega
        · have := hgr.grow (st' := st2) hp1 hco (by rw [len2, hN])
            (arc := { source := e'.pt, height := e'.dist, sinks := [va.point, vb.point] }) ?_ ?_
          · rwa [hN] at this
          · refine ⟨e'.a, e'.b, q e'.a, q e'.b, unifyCore va vb e'.pt, th0 e'.a, th0 e'.b, rfl,
              by rw [hN]; exact hltN _ (by simp), by rw [hN]; exact hltN _ (by simp), hco _ _ (hh1.co _ (by simp)), hco _ _ (hh1.co _ (by simp)), ?_, ?_,
              hf.rise₁ hX1 hX2 hev.1 hev.2.1,
              hf.rise₂ hX1 hX2 (by rw [← hf.first.2.1]; exact hev.2.1) hev.2.2, hf.sum_lt.1,
              hf.first.2.1, ?_, ?_, rfl⟩
            · rw [co2, hN]; simp
            · rw [← hqa, ← hqb]; rfl
            · rw [← hqa]; rfl
            · rw [← hqb]; rfl
          · intro qa hqa' k hk w hw
            rw [hN] at hk
            have hqa2 : st2.co e'.a = some (q e'.a) := hco _ _ (hh1.co _ (by simp))
            rw [hqa2] at hqa'
            cases hqa'
            have hw' := hh2.co k hk
            rw [hw] at hw'
            cases hw'
            rcases List.mem_cons.1 hk with rfl | hk
            · have hab := hf.next_ne (k := e'.b) (by simp)
              have hba : (q e'.a).edgePrev ≠ (q e'.a).edgeNext := by
                have := (Front.last (T := e'.b :: n :: P) hf).2.1
                rw [← this]
                exact hf.next_ne (by simp)
              have g1 : (q' k).edgePrev = (q e'.a).edgePrev := by
                simp only [q', if_pos]; rw [← hqa]; rfl
              have g2 : (q' k).edgeNext = (q e'.b).edgeNext := by
                simp only [q', if_pos]; rw [← hqb]; rfl
              rw [g1, g2]
              exact ⟨hba, hab⟩
            · have := hf.mid_ne hk
              simp only [q', if_neg (hNk k hk)]
              exact this
      · intro x hx
        rcases (hmemq _).1 hx with hx | rfl
        · exact Or.inl hx
        · right
          have hpm : p ∈ N :: n :: (P ++ [p]) := by simp
          have hm : e1.a ∈ N :: n :: (P ++ [p]) ∧ e1.b = nx' e1.a := by
            rcases hcase with ⟨-, g2, g3⟩ | ⟨-, g2, g3⟩
            · rw [g2, g3]
              refine ⟨hpm, ?_⟩
              simp only [nx']
              rw [if_neg (hNk p (by simp))]; simp
            · rw [g2, g3]
              exact ⟨by simp, rfl⟩
          obtain ⟨T', hT', hfT', -⟩ := hh2.from hf2 hm.1
          have h3' := hfT'.three
          cases T' with
          | nil => simp at h3'
          | cons b T' =>
            show e'.dist ≤ e1.dist
            rw [(hT'.dist hfT' hg1 rfl (by rw [hm.2, hfT'.first.1])).2.2]
            exact hfT'.meetTime_ge (by simp)

/-- an event that is not to be ignored is at a point of three edges -/
theorem SweepRun.triple {lp : Loop ℝ} {es : List (Event ℝ)} (h : SweepRun c lp es) {e : Event ℝ}
    (he : e ∈ es ++ lp.queue) (hl : Live lp.st e) : 0 ≤ e.dist ∧ Triple c e.dist := by
  obtain ⟨e', rfl⟩ := h.run.edges e he
  have hap := h.run.tight.2 e' he
  obtain ⟨va, vb, hva, hvb, h1, h2⟩ := hl
  have hlk := link_iff.1 (hap va vb hva hvb h1 h2)
  rcases h.wave with ⟨hw, -⟩ | ⟨l, R, nx, q, th0, y0, lam0, t0, a0, T0, hh0, hf0, hc0, hn0⟩
  · exfalso
    obtain ⟨R, t, hL, -⟩ := h.run.wave
    obtain ⟨l, hl, -⟩ := hL.lavOf hva h1
    rw [hw] at hl
    simp at hl
  have ham0 : e'.a ∈ a0 :: T0 := hh0.mem.2 (by rw [(vs_fields hva).2.2.2.1, h1])
  obtain ⟨T1, hh1, hf1, hp1⟩ := hh0.from hf0 ham0
  have h3 := hf1.three
  obtain ⟨b, T, rfl⟩ : ∃ b T, T1 = b :: T := by
    cases T1 with
    | nil => simp at h3
    | cons b T => exact ⟨b, T, rfl⟩
  obtain rfl : b = e'.b := by
    have := hh1.nx e'.a (by simp)
    rw [hlk.1] at this
    rw [hf1.first.1]
    simpa using this.symm
  obtain ⟨hX1, hX2, hdist⟩ := hh1.dist hf1 (h.good e' he) rfl rfl
  show 0 ≤ e'.dist ∧ Triple c e'.dist
  rw [hdist]
  exact ⟨le_trans hf1.time (hf1.meetTime_ge (by simp)), _, hf1.triple hX1 hX2⟩

end Polyskel
