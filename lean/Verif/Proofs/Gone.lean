import Verif.Proofs.Euler
/-
The vertices that have left the wavefront, and the connections between the points of a run.
-/
namespace Polyskel
open Scalar
set_option linter.unusedSectionVars false
variable {S : Type} [Scalar S]

/-! ### the vertices that have left -/

/-- the sinks so far are the points of the vertices `G` that have left, and the extra points `D` -/
structure Gone (n : Nat) (m : Nat) (st : St S) (out : List (Subtree S)) (G : List Nat)
    (gp D : List (V2 S)) : Prop where
  nodup : G.Nodup
  pts : List.Forall₂ (fun i p => st.pt i = some p) G gp
  gone : ∀ g ∈ G, st.vd g = some false
  all : ∀ i, st.vd i = some false → i ∈ G ∨ n ≤ i ∧ ∃ p, st.pt i = some p ∧ ∃ a ∈ out, a.source = p
  le : n ≤ st.vs.length
  count : D.length = m
  extra : ∀ d ∈ D, ∃ a ∈ out, a.source = d
  perm : (out.flatMap (·.sinks)).Perm (gp ++ D)

theorem Gone.step {n m m' : Nat} {st st' : St S} {out arcs : List (Subtree S)} {G N : List Nat}
    {gp np D D1 : List (V2 S)} (h : Gone n m st out G gp D) (hN : N.Nodup)
    (hNv : ∀ i ∈ N, st.vd i = some true) (hNp : List.Forall₂ (fun i p => st.pt i = some p) N np)
    (hpt : ∀ i < st.vs.length, st'.pt i = st.pt i)
    (hf : ∀ i, st.vd i = some false ∨ i ∈ N → st'.vd i = some false)
    (hb : ∀ i, st'.vd i = some false → st.vd i = some false ∨ i ∈ N ∨
      (st.vs.length ≤ i ∧ ∃ p, st'.pt i = some p ∧ ∃ a ∈ arcs, a.source = p))
    (hlen : st.vs.length ≤ st'.vs.length) (hs : (arcs.flatMap (·.sinks)).Perm (np ++ D1))
    (hm : m' = m + D1.length) (hD : ∀ d ∈ D1, ∃ a ∈ arcs, a.source = d) :
    Gone n m' st' (out ++ arcs) (G ++ N) (gp ++ np) (D ++ D1) where
  nodup := by
    rw [List.nodup_append]
    refine ⟨h.nodup, hN, ?_⟩
    rintro a ha b hb rfl
    have := h.gone a ha
    rw [hNv a hb] at this
    cases this
  pts := by
    refine List.rel_append ?_ ?_
    · refine forall₂_imp_mem h.pts (fun i p hi hp => ?_)
      rw [hpt i (vd_lt (h.gone i hi)), hp]
    · refine forall₂_imp_mem hNp (fun i p hi hp => ?_)
      rw [hpt i (vd_lt (hNv i hi)), hp]
  gone := by
    intro g hg
    rcases List.mem_append.1 hg with hg | hg
    · exact hf g (Or.inl (h.gone g hg))
    · exact hf g (Or.inr hg)
  all := by
    intro i hi
    rcases hb i hi with h1 | h1 | ⟨h1, p, h2, a, h3, h4⟩
    · rcases h.all i h1 with h2 | ⟨h2, p, h3, a, h4, h5⟩
      · exact Or.inl (List.mem_append_left _ h2)
      · exact Or.inr ⟨h2, p, by rw [hpt i (vd_lt h1), h3], a, List.mem_append_left _ h4, h5⟩
    · exact Or.inl (List.mem_append_right _ h1)
    · exact Or.inr ⟨le_trans h.le h1, p, h2, a, List.mem_append_right _ h3, h4⟩
  le := le_trans h.le hlen
  count := by rw [List.length_append, h.count, hm]
  extra := by
    intro d hd
    rcases List.mem_append.1 hd with hd | hd
    · obtain ⟨a, ha, e⟩ := h.extra d hd
      exact ⟨a, List.mem_append_left _ ha, e⟩
    · obtain ⟨a, ha, e⟩ := hD d hd
      exact ⟨a, List.mem_append_right _ ha, e⟩
  perm := by
    rw [List.flatMap_append]
    refine (h.perm.append hs).trans ?_
    rw [List.append_assoc, List.append_assoc]
    refine List.Perm.append_left _ ?_
    rw [← List.append_assoc, ← List.append_assoc]
    exact List.Perm.append_right _ List.perm_append_comm
where
  forall₂_imp_mem {α β : Type} {P Q : α → β → Prop} {l : List α} {l' : List β}
      (h : List.Forall₂ P l l') (hi : ∀ a b, a ∈ l → P a b → Q a b) : List.Forall₂ Q l l' := by
    induction h with
    | nil => exact .nil
    | cons h1 _ ih =>
      exact .cons (hi _ _ (by simp) h1) (ih (fun a b ha => hi a b (by simp [ha])))

theorem Loops.vd_mem {st : St S} {R : Nat → List Nat} (h : Loops st R) {l i : Nat}
    (hl : l ∈ st.slav) (hi : i ∈ R l) : st.vd i = some true :=
  (h.mem_active i).1 (List.mem_flatMap.2 ⟨l, hl, hi⟩)

theorem Loops.fresh {st : St S} {R : Nat → List Nat} (h : Loops st R) {l i : Nat}
    (hl : l ∈ st.slav) (hi : i ∈ R l) : i < st.vs.length := vd_lt (h.vd_mem hl hi)

theorem Tally.gone {st st' : St S} {R R' : Nat → List Nat} (h : Loops st R) {ev : Event S}
    {arcs out : List (Subtree S)} (t : Tally st R ev st' R' arcs) (hfit : Fits st ev) {n : Nat}
    {tr : List (St S × Event S)} {G : List Nat} {gp D : List (V2 S)}
    (hg : Gone n (dormers tr) st out G gp D) :
    ∃ G gp D, Gone n (dormers (tr ++ [(st, ev)])) st' (out ++ arcs) G gp D := by
  classical
  have hd := dormers_snoc tr (st, ev)
  have hfr : ∀ k, st.vd k = some false → k < st.vs.length := fun k hk => vd_lt hk
  cases t with
  | idle hnj hnd =>
    rw [if_neg hnd] at hd
    refine ⟨G, gp, D, ?_⟩
    rw [hd]
    simpa using hg
  | unify hev hl hp hsl hlen ha hb hpt hvd =>
    rename_i e l P pa pb
    rw [if_neg (not_joins_edge hev).2] at hd
    have hnd : (e.a :: e.b :: P).Nodup := hp.nodup_iff.2 (h.closed l hl).1
    have hma := hp.mem_iff.1 (show e.a ∈ e.a :: e.b :: P by simp)
    have hmb := hp.mem_iff.1 (show e.b ∈ e.a :: e.b :: P by simp)
    have hla := h.fresh hl hma
    have hlb := h.fresh hl hmb
    refine ⟨_, _, _, hg.step (N := [e.a, e.b]) (np := [pa, pb]) (D1 := []) ?_ ?_ ?_ ?_ ?_ ?_ ?_ ?_
      ?_ ?_⟩
    · simp only [List.nodup_cons, List.mem_cons, not_or] at hnd
      simp [hnd.1.1]
    · simp [h.vd_mem hl hma, h.vd_mem hl hmb]
    · exact .cons ha (.cons hb .nil)
    · intro i hi
      rw [hpt, if_neg (by omega)]
    · rintro i (hi | hi)
      · have := hfr i hi
        rw [hvd, if_neg (by omega)]
        split
        · rfl
        · exact hi
      · rw [hvd]
        simp only [List.mem_cons, List.not_mem_nil, or_false] at hi
        rw [if_neg (by rcases hi with rfl | rfl <;> omega), if_pos hi]
    · intro i hi
      rw [hvd] at hi
      split at hi
      · cases hi
      · split at hi
        · right; left; simpa
        · exact Or.inl hi
    · omega
    · simp
    · simpa using hd
    · simp
  | peak hev hl h3 hp hs hsl hlen hpt hvd =>
    rename_i e l vs sinks
    rw [if_neg (not_joins_edge hev).2] at hd
    refine ⟨_, _, _, hg.step (N := vs) (np := sinks) (D1 := []) ?_ ?_ hs ?_ ?_ ?_ ?_ ?_ ?_ ?_⟩
    · exact hp.nodup_iff.2 (h.closed l hl).1
    · exact fun i hi => h.vd_mem hl (hp.mem_iff.1 hi)
    · intro i hi
      rw [hpt]
    · rintro i (hi | hi)
      · rw [hvd]
        split
        · rfl
        · exact hi
      · rw [hvd, if_pos (hp.mem_iff.1 hi)]
    · intro i hi
      rw [hvd] at hi
      split at hi
      · rename_i hm; exact Or.inr (Or.inl (hp.mem_iff.2 hm))
      · exact Or.inl hi
    · omega
    · simp
    · simpa using hd
    · simp
  | cut hev hnj hl hp hP hQ hU hV hv hsQ hsP hsl hlen hpt hvd =>
    rename_i e l P Q U V pv sQ sP
    rw [if_neg (not_dormers_split hev)] at hd
    have hnd : (e.vertex :: (P ++ Q)).Nodup := hp.nodup_iff.2 (h.closed l hl).1
    have hmem : ∀ i ∈ e.vertex :: (P ++ Q), i ∈ R l := fun i => hp.mem_iff.1
    have lone : ∀ {X : List Nat} {s : List (V2 S)}, X ≠ [] → Lone st X s →
        List.Forall₂ (fun i p => st.pt i = some p) (if X.length = 1 then X else []) s := by
      rintro X s - (⟨h1, rfl⟩ | ⟨q, c, rfl, h1, rfl⟩)
      · rw [if_neg (by omega)]; exact .nil
      · rw [List.length_singleton, if_pos rfl]
        exact .cons (by rw [St.pt, h1]; rfl) .nil
    have sub : ∀ (X : List Nat) i, i ∈ (if X.length = 1 then X else []) ↔ X.length = 1 ∧ i ∈ X := by
      intro X i; split <;> simp_all
    have subl : ∀ (X : List Nat), (if X.length = 1 then X else []).Sublist X := by
      intro X; split <;> simp
    refine ⟨_, _, _, hg.step (N := e.vertex :: ((if Q.length = 1 then Q else []) ++
      if P.length = 1 then P else [])) (np := pv :: (sQ ++ sP)) (D1 := []) ?_ ?_ ?_ ?_ ?_ ?_ ?_ ?_
      ?_ ?_⟩
    · have : (e.vertex :: (Q ++ P)).Nodup :=
        (List.Perm.cons _ List.perm_append_comm).nodup_iff.1 hnd
      exact this.sublist (List.Sublist.cons_cons _ ((subl Q).append (subl P)))
    · intro i hi
      refine h.vd_mem hl (hmem i ?_)
      simp only [List.mem_cons, List.mem_append, sub] at hi ⊢
      tauto
    · exact .cons hv (List.rel_append (lone hQ hsQ) (lone hP hsP))
    · intro i hi
      rw [hpt, if_neg (by omega)]
    · intro i hi
      rw [hvd]
      by_cases hc : i = e.vertex ∨ (Q.length = 1 ∧ (i = st.vs.length ∨ i ∈ Q)) ∨
          (P.length = 1 ∧ (i = st.vs.length + 1 ∨ i ∈ P))
      · rw [if_pos hc]
      · rcases hi with hi | hi
        · have := hfr i hi
          rw [if_neg hc, if_neg (by omega), if_neg (by omega)]
          exact hi
        · exfalso
          simp only [List.mem_cons, List.mem_append, sub] at hi
          tauto
    · intro i hi
      rw [hvd] at hi
      split at hi
      · rename_i hc
        rcases hc with hc | ⟨hc, hc' | hc'⟩ | ⟨hc, hc' | hc'⟩
        · right; left; simp [hc]
        · right; right
          exact ⟨by omega, e.pt, by rw [hpt, if_pos (Or.inl hc')], _, List.mem_singleton_self _, rfl⟩
        · right; left
          simp only [List.mem_cons, List.mem_append, sub]
          tauto
        · right; right
          exact ⟨by omega, e.pt, by rw [hpt, if_pos (Or.inr hc')], _, List.mem_singleton_self _, rfl⟩
        · right; left
          simp only [List.mem_cons, List.mem_append, sub]
          tauto
      · split at hi
        · cases hi
        · split at hi
          · cases hi
          · exact Or.inl hi
    · omega
    · simp
    · simpa using hd
    · simp
  | join hev hj hl hm hml hp hQ hU hv hsl hlen hpt hvd =>
    rename_i e l m T Q U pv
    rw [if_neg (not_dormers_split hev)] at hd
    have hmv := hp.mem_iff.1 (show e.vertex ∈ e.vertex :: T by simp)
    have hlv := h.fresh hl hmv
    refine ⟨_, _, _, hg.step (N := [e.vertex]) (np := [pv]) (D1 := []) ?_ ?_ ?_ ?_ ?_ ?_ ?_ ?_ ?_ ?_⟩
    · simp
    · simp [h.vd_mem hl hmv]
    · exact .cons hv .nil
    · intro i hi
      rw [hpt, if_neg (by omega)]
    · intro i hi
      rw [hvd]
      split
      · rfl
      · rename_i hne
        rcases hi with hi | hi
        · have := hfr i hi
          rw [if_neg (by omega), if_neg (by omega)]
          exact hi
        · exact absurd (List.mem_singleton.1 hi) hne
    · intro i hi
      rw [hvd] at hi
      split at hi
      · right; left; simpa
      · split at hi
        · cases hi
        · split at hi
          · cases hi
          · exact Or.inl hi
    · omega
    · simp
    · simpa using hd
    · simp
  | dormer hev hv0 hv1 hl hlk hp hU h0 h1 ha hb hsl hlen hpt hvd =>
    rename_i d q e0 e1 e2 l x y Q U p0 p1 pa pb p
    rw [if_pos (dormers_of hev hv0 hv1)] at hd
    obtain ⟨v0, g0⟩ := getElem?_of_lt (vd_lt hv0)
    obtain ⟨v1, g1⟩ := getElem?_of_lt (vd_lt hv1)
    have hv0' := hv0
    have hv1' := hv1
    rw [(vs_fields g0).2.2.2.1] at hv0'
    rw [(vs_fields g1).2.2.2.1] at hv1'
    obtain ⟨f1, f2, f3⟩ := hfit d q e0 e1 e2 v0 v1 hev g0 g1 (by simpa using hv0')
      (by simpa using hv1')
    have hx : x = e2.a := by
      have a1 := (link_iff.1 hlk.1).1
      have a2 := (link_iff.1 f1).1
      rw [a1] at a2; simpa using a2
    subst hx
    have hy : y = e2.b := by
      have a1 := (link_iff.1 hlk.2.1).1
      have a2 := (link_iff.1 f2).1
      rw [a1] at a2; simpa using a2
    subst hy
    have hnd : (e0.vertex :: e2.a :: e2.b :: e1.vertex :: Q).Nodup :=
      hp.nodup_iff.2 (h.closed l hl).1
    refine ⟨_, _, _, hg.step (N := [e0.vertex, e2.a, e2.b, e1.vertex]) (np := [p0, pa, pb, p1])
      (D1 := [p]) ?_ ?_ ?_ ?_ ?_ ?_ ?_ ?_ ?_ ?_⟩
    · exact hnd.sublist (by simp)
    · intro i hi
      exact h.vd_mem hl (hp.mem_iff.1 (by simp at hi ⊢; tauto))
    · exact .cons h0 (.cons ha (.cons hb (.cons h1 .nil)))
    · intro i hi
      rw [hpt]
    · intro i hi
      rw [hvd]
      split
      · rfl
      · rename_i hne
        rcases hi with hi | hi
        · exact hi
        · exfalso; simp at hi hne; tauto
    · intro i hi
      rw [hvd] at hi
      split at hi
      · rename_i hm
        right; left; simp at hm ⊢; tauto
      · exact Or.inl hi
    · omega
    · have : ([pa, pb, p] ++ [p0, p1]).Perm ([p0, pa, pb, p1] ++ [p]) := by
        have e1 : ([pa, pb, p] ++ [p0, p1]).Perm ([p0, p1] ++ [pa, pb, p]) := List.perm_append_comm
        refine e1.trans (List.Perm.cons p0 ?_)
        show (p1 :: ([pa, pb] ++ [p])).Perm ([pa, pb] ++ p1 :: [p])
        exact (List.perm_middle).symm
      simpa using this
    · simpa using hd
    · simp

/-! ### connections -/

/-- the connections so far: arcs, and vertices of the same loop -/
def Step (st : St S) (R : Nat → List Nat) (out : List (Subtree S)) (p q : V2 S) : Prop :=
  (∃ a ∈ out, p = a.source ∧ q ∈ a.sinks) ∨
  ∃ l ∈ st.slav, ∃ i ∈ R l, ∃ j ∈ R l, st.pt i = some p ∧ st.pt j = some q

/-- what is connected by arcs and loops -/
abbrev Conn (st : St S) (R : Nat → List Nat) (out : List (Subtree S)) : V2 S → V2 S → Prop :=
  Relation.EqvGen (Step st R out)

/-- the points `p` and `q` of a loop are connected by an event -/
structure Rejoin (st st' : St S) (R R' : Nat → List Nat) (out arcs : List (Subtree S)) (c : V2 S) :
    Prop where
  old : ∀ l ∈ st.slav, (l ∈ st'.slav ∧ R' l = R l ∧ ∀ i ∈ R l, st'.pt i = st.pt i) ∨
    ∀ i ∈ R l, ∀ p, st.pt i = some p → Conn st' R' (out ++ arcs) p c
  src : ∀ a ∈ arcs, a.source = c
  hub : ∃ l ∈ st.slav, ∃ i ∈ R l, ∃ p, st.pt i = some p ∧ Conn st' R' (out ++ arcs) p c
  new : ∀ l ∈ st'.slav, ∀ i ∈ R' l, ∀ p, st'.pt i = some p →
    p = c ∨ ∃ l0 ∈ st.slav, i ∈ R l0 ∧ st.pt i = some p

theorem Rejoin.mono {st st' : St S} {R R' : Nat → List Nat} {out arcs : List (Subtree S)} {c : V2 S}
    (h : Rejoin st st' R R' out arcs c) {p q : V2 S} (hc : Conn st R out p q) :
    Conn st' R' (out ++ arcs) p q := by
  induction hc with
  | refl p => exact .refl p
  | symm _ _ _ ih => exact .symm _ _ ih
  | trans _ _ _ _ _ ih1 ih2 => exact .trans _ _ _ ih1 ih2
  | rel p q hs =>
    rcases hs with ⟨a, ha, h1⟩ | ⟨l, hl, i, hi, j, hj, h1, h2⟩
    · exact .rel _ _ (Or.inl ⟨a, List.mem_append_left _ ha, h1⟩)
    · rcases h.old l hl with ⟨g1, g2, g3⟩ | g
      · exact .rel _ _ (Or.inr ⟨l, g1, i, by rwa [g2], j, by rwa [g2], by rw [g3 i hi, h1],
          by rw [g3 j hj, h2]⟩)
      · exact .trans _ _ _ (g i hi p h1) (.symm _ _ (g j hj q h2))

/-- contours stay connected, and everything is connected to a contour -/
structure Web (cs : List (List (Edge2 S))) (st : St S) (R : Nat → List Nat)
    (out : List (Subtree S)) : Prop where
  contour : ∀ c ∈ cs, ∀ e ∈ c, ∀ e' ∈ c, Conn st R out e.p1 e'.p1
  node : ∀ a ∈ out, ∃ c ∈ cs, ∃ e ∈ c, Conn st R out a.source e.p1
  vertex : ∀ l ∈ st.slav, ∀ i ∈ R l, ∀ p, st.pt i = some p →
    ∃ c ∈ cs, ∃ e ∈ c, Conn st R out p e.p1

theorem Web.step {cs : List (List (Edge2 S))} {st st' : St S} {R R' : Nat → List Nat}
    {out arcs : List (Subtree S)} (hw : Web cs st R out) {c : V2 S}
    (h : Rejoin st st' R R' out arcs c) : Web cs st' R' (out ++ arcs) := by
  have hc : ∃ d ∈ cs, ∃ e ∈ d, Conn st' R' (out ++ arcs) c e.p1 := by
    obtain ⟨l, hl, i, hi, p, hp, hpc⟩ := h.hub
    obtain ⟨d, hd, e, he, hpe⟩ := hw.vertex l hl i hi p hp
    exact ⟨d, hd, e, he, .trans _ _ _ (.symm _ _ hpc) (h.mono hpe)⟩
  refine ⟨fun d hd e he e' he' => h.mono (hw.contour d hd e he e' he'), fun a ha => ?_,
    fun l hl i hi p hp => ?_⟩
  · rcases List.mem_append.1 ha with ha | ha
    · obtain ⟨d, hd, e, he, g⟩ := hw.node a ha
      exact ⟨d, hd, e, he, h.mono g⟩
    · rw [h.src a ha]; exact hc
  · rcases h.new l hl i hi p hp with rfl | ⟨l0, h1, h2, h3⟩
    · exact hc
    · obtain ⟨d, hd, e, he, g⟩ := hw.vertex l0 h1 i h2 p h3
      exact ⟨d, hd, e, he, h.mono g⟩

theorem Tally.web {cs : List (List (Edge2 S))} {st st' : St S} {R R' : Nat → List Nat}
    (h : Loops st R) {ev : Event S} {arcs out : List (Subtree S)}
    (t : Tally st R ev st' R' arcs) (hnd : ¬ Dormers st ev) (hw : Web cs st R out) :
    Web cs st' R' (out ++ arcs) := by
  -- an arc, and a new vertex in the loop of an old one
  have arc : ∀ {st'' : St S} {R'' : Nat → List Nat} {a : Subtree S} {p : V2 S}, p ∈ a.sinks →
      Conn st'' R'' (out ++ [a]) p a.source := fun hp =>
    .symm _ _ (.rel _ _ (Or.inl ⟨_, List.mem_append_right _ (List.mem_singleton_self _), rfl, hp⟩))
  have loop : ∀ {st'' : St S} {R'' : Nat → List Nat} {o : List (Subtree S)} {l i j : Nat} {p q : V2 S},
      l ∈ st''.slav → i ∈ R'' l → j ∈ R'' l → st''.pt i = some p → st''.pt j = some q →
      Conn st'' R'' o p q := fun h1 h2 h3 h4 h5 => .rel _ _ (Or.inr ⟨_, h1, _, h2, _, h3, h4, h5⟩)
  cases t with
  | idle hnj hnd => simpa using hw
  | unify hev hl hp hsl hlen ha hb hpt hvd =>
    rename_i e l P pa pb
    have hma := hp.mem_iff.1 (show e.a ∈ e.a :: e.b :: P by simp)
    have hold : ∀ {m i}, m ∈ st.slav → i ∈ R m → st'.pt i = st.pt i := by
      intro m i hm hi
      have := h.fresh hm hi
      rw [hpt, if_neg (by omega)]
    refine hw.step (c := e.pt) ⟨fun m hm => ?_, by simp, ?_, ?_⟩
    · by_cases hml : m = l
      · subst hml
        right
        intro i hi p hip
        rcases List.mem_cons.1 (hp.mem_iff.2 hi) with rfl | hi'
        · rw [ha] at hip; cases hip; exact arc (by simp)
        · rcases List.mem_cons.1 hi' with rfl | hi'
          · rw [hb] at hip; cases hip; exact arc (by simp)
          · refine loop (l := m) (i := i) (j := st.vs.length) (by rwa [hsl]) ?_ ?_ ?_ ?_
            · simp [hi']
            · simp
            · rw [hold hm hi, hip]
            · rw [hpt, if_pos rfl]
      · left
        exact ⟨by rwa [hsl], by simp [hml], fun i hi => hold hm hi⟩
    · exact ⟨l, hl, e.a, hma, pa, ha, arc (by simp)⟩
    · intro m hm i hi p hip
      rw [hsl] at hm
      split at hi
      · rename_i hml
        subst hml
        rcases List.mem_cons.1 hi with rfl | hi
        · left
          rw [hpt, if_pos rfl] at hip
          cases hip; rfl
        · right
          have := hp.mem_iff.1 (show i ∈ e.a :: e.b :: P by simp [hi])
          exact ⟨m, hm, this, by rw [← hold hm this, hip]⟩
      · right
        exact ⟨m, hm, hi, by rw [← hold hm hi, hip]⟩
  | peak hev hl h3 hp hs hsl hlen hpt hvd =>
    rename_i e l vs sinks
    have hsink : ∀ i ∈ R l, ∀ p, st.pt i = some p → p ∈ sinks := by
      intro i hi p hip
      obtain ⟨p', hp', he⟩ := forall₂_mem_left hs (hp.mem_iff.2 hi)
      rw [he] at hip; cases hip; exact hp'
    refine hw.step (c := e.pt) ⟨fun m hm => ?_, by simp, ?_, ?_⟩
    · by_cases hml : m = l
      · subst hml
        right
        exact fun i hi p hip => arc (hsink i hi p hip)
      · left
        refine ⟨by rw [hsl]; exact (h.nodup.mem_erase_iff).2 ⟨hml, hm⟩, rfl, fun i _ => by rw [hpt]⟩
    · obtain ⟨i, hi⟩ : ∃ i, i ∈ R l := by
        cases hR : R l with
        | nil => rw [hR] at h3; simp at h3
        | cons a _ => exact ⟨a, by simp⟩
      obtain ⟨p', hp', he⟩ := forall₂_mem_left hs (hp.mem_iff.2 hi)
      exact ⟨l, hl, i, hi, p', he, arc hp'⟩
    · intro m hm i hi p hip
      rw [hsl] at hm
      right
      exact ⟨m, List.mem_of_mem_erase hm, hi, by rw [← hpt, hip]⟩
  | cut hev hnj hl hp hP hQ hU hV hv hsQ hsP hsl hlen hpt hvd =>
    rename_i e l P Q U V pv sQ sP
    have hmv := hp.mem_iff.1 (show e.vertex ∈ e.vertex :: (P ++ Q) by simp)
    have hmP : ∀ i ∈ P, i ∈ R l := fun i hi => hp.mem_iff.1 (by simp [hi])
    have hmQ : ∀ i ∈ Q, i ∈ R l := fun i hi => hp.mem_iff.1 (by simp [hi])
    have hold : ∀ {m i}, m ∈ st.slav → i ∈ R m → st'.pt i = st.pt i := by
      intro m i hm hi
      have := h.fresh hm hi
      rw [hpt, if_neg (by omega)]
    have hne : ∀ m ∈ st.slav, m ≠ st.lavs.length ∧ m ≠ st.lavs.length + 1 := by
      intro m hm
      have := h.lavs_lt hm
      omega
    refine hw.step (c := e.pt) ⟨fun m hm => ?_, by simp, ?_, ?_⟩
    · by_cases hml : m = l
      · subst hml
        right
        intro i hi p hip
        rcases List.mem_cons.1 (hp.mem_iff.2 hi) with rfl | hi'
        · rw [hv] at hip; cases hip; exact arc (by simp)
        · rcases List.mem_append.1 hi' with hi' | hi'
          · rcases hsP with ⟨h2, -⟩ | ⟨q, c, rfl, hc, rfl⟩
            · refine loop (l := st.lavs.length + 1) (i := i) (j := st.vs.length + 1) ?_ ?_ ?_ ?_ ?_
              · rw [hsl]; simp [h2]
              · simp [hV.mem_iff, hi']
              · simp [hV.mem_iff]
              · rw [hold hm hi, hip]
              · rw [hpt, if_pos (Or.inr rfl)]
            · rw [List.mem_singleton] at hi'
              subst hi'
              rw [St.pt, hc] at hip
              cases hip
              exact arc (by simp)
          · rcases hsQ with ⟨h2, -⟩ | ⟨q, c, rfl, hc, rfl⟩
            · refine loop (l := st.lavs.length) (i := i) (j := st.vs.length) ?_ ?_ ?_ ?_ ?_
              · rw [hsl]; simp [h2]
              · simp [hU.mem_iff, hi']
              · simp [hU.mem_iff]
              · rw [hold hm hi, hip]
              · rw [hpt, if_pos (Or.inl rfl)]
            · rw [List.mem_singleton] at hi'
              subst hi'
              rw [St.pt, hc] at hip
              cases hip
              exact arc (by simp)
      · left
        refine ⟨?_, by simp [hne m hm], fun i hi => hold hm hi⟩
        rw [hsl]
        exact List.mem_append_left _ ((h.nodup.mem_erase_iff).2 ⟨hml, hm⟩)
    · exact ⟨l, hl, e.vertex, hmv, pv, hv, arc (by simp)⟩
    · intro m hm i hi p hip
      split at hi
      · rcases List.mem_cons.1 (hV.mem_iff.1 hi) with rfl | hi
        · left
          rw [hpt, if_pos (Or.inr rfl)] at hip
          cases hip; rfl
        · right
          exact ⟨l, hl, hmP i hi, by rw [← hold hl (hmP i hi), hip]⟩
      · split at hi
        · rcases List.mem_cons.1 (hU.mem_iff.1 hi) with rfl | hi
          · left
            rw [hpt, if_pos (Or.inl rfl)] at hip
            cases hip; rfl
          · right
            exact ⟨l, hl, hmQ i hi, by rw [← hold hl (hmQ i hi), hip]⟩
        · rename_i n1 n2
          right
          have hm' : m ∈ st.slav := by
            rw [hsl] at hm
            rcases List.mem_append.1 hm with hm | hm
            · exact List.mem_of_mem_erase hm
            · exfalso
              rcases List.mem_append.1 hm with hm | hm <;> split at hm <;> simp_all
          exact ⟨m, hm', hi, by rw [← hold hm' hi, hip]⟩
  | join hev hj hl hm hml hp hQ hU hv hsl hlen hpt hvd =>
    rename_i e l m T Q U pv
    have hmv := hp.mem_iff.1 (show e.vertex ∈ e.vertex :: T by simp)
    have hmT : ∀ i ∈ T, i ∈ R l := fun i hi => hp.mem_iff.1 (by simp [hi])
    have hold : ∀ {m i}, m ∈ st.slav → i ∈ R m → st'.pt i = st.pt i := by
      intro m i hm hi
      have := h.fresh hm hi
      rw [hpt, if_neg (by omega)]
    have hn : st.lavs.length ∈ st'.slav := by rw [hsl]; simp
    have hub : ∀ i, i ∈ Q ∨ i ∈ T → ∀ p, st'.pt i = some p →
        Conn st' (fun k => if k = st.lavs.length then U else R k)
          (out ++ [{ source := e.pt, height := e.dist, sinks := [pv] }]) p e.pt := by
      intro i hi p hip
      refine loop (l := st.lavs.length) (i := i) (j := st.vs.length) hn ?_ ?_ hip ?_
      · simp only [if_true, hU.mem_iff, List.mem_cons, List.mem_append]
        tauto
      · simp [hU.mem_iff]
      · rw [hpt, if_pos (Or.inl rfl)]
    refine hw.step (c := e.pt) ⟨fun k hk => ?_, by simp, ?_, ?_⟩
    · by_cases hkl : k = l
      · subst hkl
        right
        intro i hi p hip
        rcases List.mem_cons.1 (hp.mem_iff.2 hi) with rfl | hi'
        · rw [hv] at hip; cases hip; exact arc (by simp)
        · exact hub i (Or.inr hi') p (by rw [hold hk hi, hip])
      · by_cases hkm : k = m
        · subst hkm
          right
          intro i hi p hip
          exact hub i (Or.inl (hQ.mem_iff.2 hi)) p (by rw [hold hk hi, hip])
        · left
          have := h.lavs_lt hk
          refine ⟨?_, by rw [if_neg (by omega)], fun i hi => hold hk hi⟩
          rw [hsl]
          refine List.mem_append_left _ ?_
          exact ((h.nodup.erase _).mem_erase_iff).2 ⟨hkm, (h.nodup.mem_erase_iff).2 ⟨hkl, hk⟩⟩
    · exact ⟨l, hl, e.vertex, hmv, pv, hv, arc (by simp)⟩
    · intro k hk i hi p hip
      split at hi
      · have : i = st.vs.length ∨ i = st.vs.length + 1 ∨ i ∈ Q ∨ i ∈ T := by
          have := hU.mem_iff.1 hi
          simp only [List.mem_cons, List.mem_append] at this
          tauto
        rcases this with rfl | rfl | hi | hi
        · left
          rw [hpt, if_pos (Or.inl rfl)] at hip
          cases hip; rfl
        · left
          rw [hpt, if_pos (Or.inr rfl)] at hip
          cases hip; rfl
        · right
          exact ⟨m, hm, hQ.mem_iff.1 hi, by rw [← hold hm (hQ.mem_iff.1 hi), hip]⟩
        · right
          exact ⟨l, hl, hmT i hi, by rw [← hold hl (hmT i hi), hip]⟩
      · rename_i hne
        right
        have hk' : k ∈ st.slav := by
          rw [hsl] at hk
          rcases List.mem_append.1 hk with hk | hk
          · exact List.mem_of_mem_erase (List.mem_of_mem_erase hk)
          · exact absurd (List.mem_singleton.1 hk) hne
        exact ⟨k, hk', hi, by rw [← hold hk' hi, hip]⟩
  | dormer hev hv0 hv1 => exact absurd (dormers_of hev hv0 hv1) hnd

/-- an event changes no point -/
theorem Tally.pt_old {st st' : St S} {R R' : Nat → List Nat} {ev : Event S}
    {arcs : List (Subtree S)} (t : Tally st R ev st' R' arcs) :
    st.vs.length ≤ st'.vs.length ∧ ∀ k < st.vs.length, st'.pt k = st.pt k := by
  cases t with
  | idle hnj hnd => exact ⟨le_refl _, fun _ _ => rfl⟩
  | unify hev hl hp hsl hlen ha hb hpt hvd =>
    exact ⟨by omega, fun k hk => by rw [hpt, if_neg (by omega)]⟩
  | peak hev hl h3 hp hs hsl hlen hpt hvd => exact ⟨by omega, fun k _ => by rw [hpt]⟩
  | cut hev hnj hl hp hP hQ hU hV hv hsQ hsP hsl hlen hpt hvd =>
    exact ⟨by omega, fun k hk => by rw [hpt, if_neg (by omega)]⟩
  | join hev hj hl hm hml hp hQ hU hv hsl hlen hpt hvd =>
    exact ⟨by omega, fun k hk => by rw [hpt, if_neg (by omega)]⟩
  | dormer hev hv0 hv1 hl hlk hp hU h0 h1 ha hb hsl hlen hpt hvd =>
    exact ⟨by omega, fun k _ => by rw [hpt]⟩

/-! ### the beginning -/

theorem flatten_index {α β : Type} (g : α → β) : ∀ (cs : List (List α)) (f : Nat → Option β),
    (∀ (j : Nat) c, cs[j]? = some c → ∀ i < c.length,
      f (((cs.take j).map List.length).sum + i) = c[i]?.map g) →
    ∀ k < (cs.map List.length).sum, f k = cs.flatten[k]?.map g
  | [], _, _, k, hk => by simp at hk
  | c :: cs, f, h, k, hk => by
    by_cases hc : k < c.length
    · have := h 0 c rfl k hc
      rw [List.flatten_cons, List.getElem?_append_left hc]
      simpa using this
    · rw [List.flatten_cons, List.getElem?_append_right (by omega)]
      have := flatten_index g cs (fun k => f (c.length + k)) (fun j d hj i hi => by
        have := h (j + 1) d (by simpa using hj) i hi
        simpa [Nat.add_assoc] using this) (k - c.length) (by
          simp only [List.map_cons, List.sum_cons] at hk; omega)
      rw [← this]
      congr 1
      omega

/-- the wavefront at the beginning -/
theorem startLoop_first {cs : List (List (Edge2 S))} {lp : Loop S} (h3 : ∀ c ∈ cs, 3 ≤ c.length)
    (hs : startLoop cs = .ok lp) :
    ∃ R, Loops lp.st R ∧ lp.st.slav = List.range cs.length ∧
      lp.st.vs.length = (cs.map List.length).sum ∧
      (lp.st.slav.map (fun l => (R l).length)).sum = (cs.map List.length).sum ∧
      (∀ k < (cs.map List.length).sum, lp.st.pt k = cs.flatten[k]?.map (·.p1)) ∧
      (∀ k < (cs.map List.length).sum, lp.st.vd k = some true) ∧ Web cs lp.st R [] := by
  obtain ⟨st, R, h1, hL, hsl, hlen, hlav, -⟩ := mkSlav_loops h3
  rw [(startLoop_ok hs).1] at h1
  simp only [Except.ok.injEq] at h1
  subst h1
  have hpt : ∀ (j : Nat) c, cs[j]? = some c → ∀ i < c.length,
      lp.st.pt (((cs.take j).map List.length).sum + i) = c[i]?.map (·.p1) := by
    intro j c hj i hi
    obtain ⟨-, -, hco⟩ := hlav j c hj
    have hc3 := h3 c (List.mem_of_getElem? hj)
    rw [St.pt, hco i hi, List.getElem?_eq_getElem hi]
    have hcp : (cornerPairs c)[i]? =
        some ((c.drop (c.length - 1) ++ c.take (c.length - 1))[i]'(by simp; omega), c[i]) := by
      unfold cornerPairs
      rw [List.getElem?_eq_getElem (by simp; omega), List.getElem_zip]
    rw [hcp]
    rfl
  have hsum : (lp.st.slav.map (fun l => (R l).length)).sum = (cs.map List.length).sum := by
    congr 1
    rw [hsl]
    apply List.ext_getElem
    · simp
    · intro j h1 h2
      simp only [List.length_map, List.length_range] at h1
      have := (hlav j cs[j] (List.getElem?_eq_getElem h1)).1
      simp [this]
  have hval : ∀ v ∈ lp.st.vs, v.valid = true := by
    have := hL.count
    rw [hsum, ← hlen] at this
    exact List.countP_eq_length.1 this
  refine ⟨R, hL, hsl, hlen, hsum, flatten_index _ _ _ hpt, ?_, ?_⟩
  · intro k hk
    rw [← hlen] at hk
    obtain ⟨v, hv⟩ := getElem?_of_lt hk
    rw [(vs_fields hv).2.2.2.1, hval v (List.mem_of_getElem? hv)]
  · refine ⟨?_, by simp, ?_⟩
    · intro c hc e he e' he'
      obtain ⟨j, hj⟩ := List.mem_iff_getElem?.1 hc
      obtain ⟨i, hi⟩ := List.mem_iff_getElem?.1 he
      obtain ⟨i', hi'⟩ := List.mem_iff_getElem?.1 he'
      have hil := (List.getElem?_eq_some_iff.1 hi).1
      have hil' := (List.getElem?_eq_some_iff.1 hi').1
      refine .rel _ _ (Or.inr ⟨j, ?_, ((cs.take j).map List.length).sum + i, ?_,
        ((cs.take j).map List.length).sum + i', ?_, by rw [hpt j c hj i hil, hi]; rfl,
        by rw [hpt j c hj i' hil', hi']; rfl⟩)
      · rw [hsl, List.mem_range]; exact (List.getElem?_eq_some_iff.1 hj).1
      · rw [(hlav j c hj).1, List.mem_range'_1]; omega
      · rw [(hlav j c hj).1, List.mem_range'_1]; omega
    · intro l hl k hk p hp
      rw [hsl, List.mem_range] at hl
      have hj : cs[l]? = some cs[l] := List.getElem?_eq_getElem hl
      rw [(hlav l _ hj).1, List.mem_range'_1] at hk
      obtain ⟨i, rfl⟩ := Nat.exists_eq_add_of_le hk.1
      have hi : i < cs[l].length := by omega
      rw [hpt l _ hj i hi, List.getElem?_eq_getElem hi] at hp
      simp only [Option.map_some, Option.some.injEq] at hp
      subst hp
      exact ⟨cs[l], List.getElem_mem _, cs[l][i], List.getElem_mem _, .refl _⟩

end Polyskel
