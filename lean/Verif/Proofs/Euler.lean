import Mathlib.Algebra.BigOperators.Group.List.Basic
import Verif.Proofs.Tally
/-
Counting the vertices, the nodes and the arcs of a run.
-/
namespace Polyskel
open Scalar
set_option linter.unusedSectionVars false
variable {S : Type} [Scalar S]

theorem countP_range {α : Type} (l : List α) (p : α → Bool) :
    l.countP p = (List.range l.length).countP (fun k => l[k]?.map p == some true) := by
  induction l using List.reverseRecOn with
  | nil => rfl
  | append_singleton l a ih =>
    rw [List.countP_append, ih, List.length_append, List.length_singleton, List.range_succ,
      List.countP_append]
    congr 1
    · refine List.countP_congr (fun k hk => ?_)
      rw [List.getElem?_append_left (List.mem_range.1 hk)]
    · simp [List.countP_cons]

/-- the vertices of all loops -/
def St.active (st : St S) (R : Nat → List Nat) : List Nat := st.slav.flatMap R

theorem Loops.mem_active {st : St S} {R : Nat → List Nat} (h : Loops st R) (k : Nat) :
    k ∈ st.active R ↔ st.vd k = some true := by
  rw [h.valid, St.active, List.mem_flatMap]
  constructor
  · rintro ⟨l, hl, hk⟩; exact ⟨l, hl, (h.mem l hl k).1 hk⟩
  · rintro ⟨l, hl, hk⟩; exact ⟨l, hl, (h.mem l hl k).2 hk⟩

theorem Loops.nodup_active {st : St S} {R : Nat → List Nat} (h : Loops st R) :
    (st.active R).Nodup := by
  rw [St.active, List.nodup_flatMap]
  refine ⟨fun l hl => (h.closed l hl).1, ?_⟩
  refine h.nodup.imp_of_mem ?_
  intro l l' hl hl' hne
  rw [Function.onFun, List.disjoint_left]
  exact fun k h1 h2 => hne (h.disjoint hl hl' h1 h2)

/-- the number of valid vertices is the sum of the lengths of the loops -/
theorem Loops.count {st : St S} {R : Nat → List Nat} (h : Loops st R) :
    st.vs.countP (·.valid) = (st.slav.map (fun l => (R l).length)).sum := by
  have h1 : ((List.range st.vs.length).filter (fun k => st.vd k == some true)).Perm
      (st.active R) := by
    rw [List.perm_ext_iff_of_nodup (List.nodup_range.filter _) h.nodup_active]
    intro k
    rw [h.mem_active, List.mem_filter, List.mem_range]
    constructor
    · rintro ⟨-, e⟩; simpa using e
    · intro e; exact ⟨vd_lt e, by simp [e]⟩
  rw [countP_range, List.countP_eq_length_filter]
  have h2 := h1.length_eq
  rw [St.active, List.length_flatMap] at h2
  exact h2

theorem sum_erase {α : Type} [DecidableEq α] {L : List α} {l : α} (hl : l ∈ L) (f : α → Nat) :
    (L.map f).sum = f l + ((L.erase l).map f).sum := by
  rw [((List.perm_cons_erase hl).map f).sum_eq]
  simp

theorem sum_congr' {α : Type} {L : List α} {f g : α → Nat} (h : ∀ a ∈ L, f a = g a) :
    (L.map f).sum = (L.map g).sum := by rw [List.map_congr_left h]

theorem Loops.lt_of_erase {st : St S} {R : Nat → List Nat} (h : Loops st R) {l k : Nat}
    (hk : k ∈ st.slav.erase l) : k < st.lavs.length := h.lavs_lt (List.mem_of_mem_erase hk)

theorem joins_snoc (ms : List (St S × Event S)) (p : St S × Event S) [Decidable (JoinsLoops p.1 p.2)] :
    joins (ms ++ [p]) = joins ms + if JoinsLoops p.1 p.2 then 1 else 0 := by
  unfold joins
  rw [List.countP_append]
  by_cases h : JoinsLoops p.1 p.2 <;> simp [h]

theorem dormers_snoc (ms : List (St S × Event S)) (p : St S × Event S)
    [Decidable (Dormers p.1 p.2)] :
    dormers (ms ++ [p]) = dormers ms + if Dormers p.1 p.2 then 1 else 0 := by
  unfold dormers
  rw [List.countP_append]
  by_cases h : Dormers p.1 p.2 <;> simp [h]

theorem not_joins_edge {st : St S} {ev : Event S} {e : EdgeEv S} (h : ev = .edge e) :
    ¬ JoinsLoops st ev ∧ ¬ Dormers st ev := by
  subst h
  constructor
  · rintro ⟨_, _, _, _, _, h, -⟩; cases h
  · rintro ⟨_, _, _, _, _, _, _, h, -⟩; cases h

theorem not_dormers_split {st : St S} {ev : Event S} {e : SplitEv S} (h : ev = .split e) :
    ¬ Dormers st ev := by
  subst h
  rintro ⟨_, _, _, _, _, _, _, h, -⟩; cases h

theorem not_joins_dormer {st : St S} {ev : Event S} {d : S} {q : Option (V2 S)}
    {e0 e1 : SplitEv S} {e2 : EdgeEv S} (h : ev = .dormer d q e0 e1 e2) : ¬ JoinsLoops st ev := by
  subst h
  rintro ⟨_, _, _, _, _, h, -⟩; cases h

theorem dormers_of {st : St S} {ev : Event S} {d : S} {q : Option (V2 S)}
    {e0 e1 : SplitEv S} {e2 : EdgeEv S} (h : ev = .dormer d q e0 e1 e2)
    (h0 : st.vd e0.vertex = some true) (h1 : st.vd e1.vertex = some true) : Dormers st ev := by
  obtain ⟨v0, g0⟩ := getElem?_of_lt (vd_lt h0)
  obtain ⟨v1, g1⟩ := getElem?_of_lt (vd_lt h1)
  rw [(vs_fields g0).2.2.2.1] at h0
  rw [(vs_fields g1).2.2.2.1] at h1
  exact ⟨d, q, e0, e1, e2, v0, v1, h, g0, g1, by simpa using h0, by simpa using h1⟩

/-- the number of arcs -/
def arcCount (out : List (Subtree S)) : Nat := (out.map (fun a => a.sinks.length)).sum

theorem lone_length {st : St S} {Q : List Nat} {s : List (V2 S)} (h : Lone st Q s) (hQ : Q ≠ []) :
    (2 ≤ Q.length ∧ s.length = 0) ∨ (Q.length = 1 ∧ s.length = 1) := by
  rcases h with ⟨h, rfl⟩ | ⟨q, c, rfl, -, rfl⟩
  · exact Or.inl ⟨h, rfl⟩
  · exact Or.inr ⟨rfl, rfl⟩

/-- the balance of one event -/
theorem Tally.balance {st : St S} {R : Nat → List Nat} (h : Loops st R) {ev : Event S} {st' : St S}
    {R' : Nat → List Nat} {arcs : List (Subtree S)} (t : Tally st R ev st' R' arcs)
    [Decidable (JoinsLoops st ev)] [Decidable (Dormers st ev)] :
    arcCount arcs + (st'.slav.map (fun l => (R' l).length)).sum + st.slav.length +
      (if Dormers st ev then 1 else 0) =
    arcs.length + (st.slav.map (fun l => (R l).length)).sum + st'.slav.length +
      2 * if JoinsLoops st ev then 1 else 0 := by
  cases t with
  | idle hnj hnd => simp [hnj, hnd, arcCount]
  | unify hev hl hp hsl hlen ha hb hpt hvd =>
    rename_i e l P pa pb
    obtain ⟨h1, h2⟩ := not_joins_edge (st := st) hev
    rw [if_neg h1, if_neg h2, hsl, sum_erase hl, sum_erase hl (f := fun l => (R l).length),
      sum_congr' (L := st.slav.erase l) (g := fun l => (R l).length) (fun k hk => by
        simp only [if_neg ((h.nodup.mem_erase_iff).1 hk).1])]
    have := hp.length_eq
    simp [arcCount] at *
    omega
  | peak hev hl h3 hp hs hsl hlen hpt hvd =>
    rename_i e l vs sinks
    obtain ⟨h1, h2⟩ := not_joins_edge (st := st) hev
    have hlen := List.length_erase_of_mem hl
    have hpos := List.length_pos_of_mem hl
    have := hs.length_eq
    have := hp.length_eq
    rw [if_neg h1, if_neg h2, hsl, sum_erase hl (f := fun l => (R l).length)]
    simp [arcCount] at *
    omega
  | cut hev hnj hl hp hP hQ hU hV hv hsQ hsP hsl hlen hpt hvd =>
    rename_i e l P Q U V pv sQ sP
    have h2 := not_dormers_split (st := st) hev
    have hle := List.length_erase_of_mem hl
    have hpos := List.length_pos_of_mem hl
    rw [if_neg hnj, if_neg h2, hsl, sum_erase hl (f := fun l => (R l).length)]
    have e1 := hU.length_eq
    have e2 := hV.length_eq
    have e3 := hp.length_eq
    rw [List.map_append, List.sum_append,
      sum_congr' (L := st.slav.erase l) (g := fun l => (R l).length) (fun k hk => by
        have := h.lt_of_erase hk
        simp only [if_neg (show ¬ k = st.lavs.length + 1 by omega),
          if_neg (show ¬ k = st.lavs.length by omega)])]
    rcases lone_length hsQ hQ with ⟨q1, q2⟩ | ⟨q1, q2⟩ <;>
      rcases lone_length hsP hP with ⟨p1, p2⟩ | ⟨p1, p2⟩ <;>
      simp [arcCount, q1, q2, p1, p2, show st.lavs.length ≠ st.lavs.length + 1 by omega] at * <;>
      omega
  | join hev hj hl hm hml hp hQ hU hv hsl hlen hpt hvd =>
    rename_i e l m T Q U pv
    have h2 := not_dormers_split (st := st) hev
    have hme : m ∈ st.slav.erase l := (h.nodup.mem_erase_iff).2 ⟨hml, hm⟩
    have hle := List.length_erase_of_mem hl
    have hle' := List.length_erase_of_mem hme
    have hpos := List.length_pos_of_mem hl
    have hpos' := List.length_pos_of_mem hme
    rw [if_pos hj, if_neg h2, hsl, sum_erase hl (f := fun l => (R l).length),
      sum_erase hme (f := fun l => (R l).length)]
    have e1 := hU.length_eq
    have e2 := hQ.length_eq
    have e3 := hp.length_eq
    rw [List.map_append, List.sum_append,
      sum_congr' (L := (st.slav.erase l).erase m) (g := fun l => (R l).length) (fun k hk => by
        have := h.lt_of_erase (List.mem_of_mem_erase hk)
        simp only [if_neg (show ¬ k = st.lavs.length by omega)])]
    simp [arcCount] at *
    omega
  | dormer hev hv0 hv1 hl hlk hp hU h0 h1 ha hb hsl hlen hpt hvd =>
    rename_i d q e0 e1 e2 l x y Q U p0 p1 pa pb p
    have h2 := not_joins_dormer (st := st) hev
    have h3 := dormers_of hev hv0 hv1
    have hle := List.length_erase_of_mem hl
    have hpos := List.length_pos_of_mem hl
    rw [if_neg h2, if_pos h3, hsl, sum_erase hl (f := fun l => (R l).length)]
    have e1 := hU.length_eq
    have e3 := hp.length_eq
    rw [List.map_append, List.sum_append,
      sum_congr' (L := st.slav.erase l) (g := fun l => (R l).length) (fun k hk => by
        have := h.lt_of_erase hk
        simp only [if_neg (show ¬ k = st.lavs.length by omega)])]
    simp [arcCount] at *
    omega

end Polyskel
