import Mathlib.Data.List.Rotate
import Mathlib.Tactic.Linarith
import Verif.Proofs.Graph
import Verif.Props.Basic
import Verif.Model.Polygonize
import Verif.Spec.Samples
/-
C10-C16: the face graph, poly2FacesGraph.py.
-/
namespace Polyskel
open Graph

/-! ### C10 -/

/-- C10: the neighbour list of `v` after adding the edges `ds`: the other ends of its edges, in
the order of insertion, whatever element `set.pop()` returns. -/
theorem C10_neighbours (rt : Rt) (ds : List Dart) (v : Int) :
    nbrs (addEdges rt [] ds) v =
      (ds.filter (fun e => e.1 != e.2 && (e.1 == v || e.2 == v))).map
        (fun e => if e.1 = v then e.2 else e.1) := by
  unfold addEdges
  rw [foldl_addEdge_nbrs]
  simp only [nbrs, List.nil_append]
  induction ds with
  | nil => rfl
  | cons d ds ih =>
    obtain ⟨a, b⟩ := d
    rw [List.filterMap_cons, List.filter_cons]
    by_cases hab : a = b
    · simp [otherEnd, hab, ih]
    · by_cases h1 : a = v
      · subst h1; simp [otherEnd, hab, ih]
      · by_cases h2 : b = v
        · subst h2
          simp [otherEnd, h1, ih]
        · simp [otherEnd, hab, h1, h2, ih]

/-- C10: `w` is listed as a neighbour of `v` as often as the edge between them was added. -/
theorem C10_neighbour_count (rt : Rt) (ds : List Dart) (v w : Int) :
    (nbrs (addEdges rt [] ds) v).count w = ds.countP (Joins v w) := by
  unfold addEdges
  rw [foldl_addEdge_nbrs]
  simp only [nbrs, List.nil_append]
  induction ds with
  | nil => rfl
  | cons d ds ih =>
    obtain ⟨a, b⟩ := d
    rw [List.filterMap_cons, List.countP_cons]
    by_cases hab : a = b
    · simp [otherEnd, hab, ih, Joins]
    · by_cases h1 : a = v
      · subst h1
        by_cases h3 : b = w
        · subst h3; simp [otherEnd, hab, Joins, ih]
        · have : ¬ (a = w ∧ b = a) := fun h => hab h.2.symm
          simp [otherEnd, hab, Joins, ih, h3, this]
      · by_cases h2 : b = v
        · subst h2
          by_cases h3 : a = w
          · subst h3; simp [otherEnd, hab, Joins, ih]
          · simp [otherEnd, Joins, ih, h1, h3]
        · simp [otherEnd, hab, h1, h2, Joins, ih]

/-- C10: adjacency is symmetric, a loop is ignored, the vertices are the ends of the other edges,
each once. -/
theorem C10_vertices (rt : Rt) (ds : List Dart) :
    (∀ v w, (nbrs (addEdges rt [] ds) v).count w = (nbrs (addEdges rt [] ds) w).count v) ∧
    (∀ v, v ∉ nbrs (addEdges rt [] ds) v) ∧
    (keys (addEdges rt [] ds)).Nodup ∧
    (∀ v, v ∈ keys (addEdges rt [] ds) ↔ ∃ e ∈ ds, e.1 ≠ e.2 ∧ (v = e.1 ∨ v = e.2)) := by
  refine ⟨?_, ?_, foldl_addEdge_nodup rt ds (by simp [keys]), ?_⟩
  · intro v w
    rw [C10_neighbour_count, C10_neighbour_count]
    congr 1; funext e
    simp only [Joins]; rw [Bool.or_comm]
  · intro v hv
    have := List.count_pos_iff.2 hv
    rw [C10_neighbour_count, List.countP_pos_iff] at this
    obtain ⟨e, _, he⟩ := this
    obtain ⟨a, b⟩ := e
    simp [Joins] at he
    exact he.1 (by rw [he.2.1, he.2.2])
  · intro v
    unfold addEdges
    rw [foldl_addEdge_keys]
    simp [keys]

/-- C10: the neighbour relation does not depend on the runtime. -/
theorem C10_runtime_independent (rt rt' : Rt) (ds : List Dart) (v : Int) :
    nbrs (addEdges rt [] ds) v = nbrs (addEdges rt' [] ds) v := by
  rw [C10_neighbours, C10_neighbours]

/-- C10: when no undirected edge is added twice, the graph is simple. -/
theorem C10_simple (rt : Rt) (ds : List Dart) (h : ∀ v w, ds.countP (Joins v w) ≤ 1) :
    Simple (addEdges rt [] ds) where
  keys := (C10_vertices rt ds).2.2.1
  nodup v := by
    rw [List.nodup_iff_count_le_one]
    intro w; rw [C10_neighbour_count]; exact h v w
  irrefl := (C10_vertices rt ds).2.1
  symm v w hw := by
    have := List.count_pos_iff.2 hw
    rw [(C10_vertices rt ds).1] at this
    exact List.count_pos_iff.1 this

theorem joins_le_one {ds : List Dart}
    (h : ds.Pairwise (fun a b => a ≠ b ∧ a ≠ (b.2, b.1))) (v w : Int) :
    ds.countP (Joins v w) ≤ 1 := by
  induction ds with
  | nil => simp
  | cons d ds ih =>
    rw [List.pairwise_cons] at h
    rw [List.countP_cons]
    split
    · rename_i hd
      have : ds.countP (Joins v w) = 0 := by
        rw [List.countP_eq_zero]
        intro e he hj
        obtain ⟨h1, h2⟩ := h.1 e he
        obtain ⟨a, b⟩ := d
        obtain ⟨x, y⟩ := e
        simp [Joins] at hd hj h1 h2
        grind
      omega
    · exact ih h.2

/-- case: a triangle with a centre, and an attempt to add a loop -/
example : nbrs (addEdges rt0 [] [(0, 1), (1, 2), (2, 0), (3, 0), (3, 1), (3, 2), (3, 3)]) 3 =
    [0, 1, 2] ∧
    Simple (addEdges rt0 [] [(0, 1), (1, 2), (2, 0), (3, 0), (3, 1), (3, 2), (3, 3)]) := by
  refine ⟨by decide, C10_simple rt0 _ ?_⟩
  exact joins_le_one (by decide)

/-! ### C11 -/

theorem orderNbrs_perm {S : Type} [Scalar S] {rt : Rt} {vList : List (V3 S)} {v : Int}
    {ns o : List Int} (h : orderNbrs rt vList v ns = .ok o) : o.Perm ns := by
  unfold orderNbrs at h
  split at h
  · cases h; exact List.Perm.refl _
  · obtain ⟨c, _, h⟩ := bind_ok.1 h
    obtain ⟨keyed, _, h⟩ := bind_ok.1 h
    cases h
    exact rt.sort_perm _ _

theorem embedding_entries {S : Type} [Scalar S] {rt : Rt} {g emb : Graph} {vList : List (V3 S)}
    {ccw : Bool} (h : circularEmbedding rt g vList ccw = .ok emb) :
    List.Forall₂ (fun (a b : Int × List Int) => b.1 = a.1 ∧ ∃ o, orderNbrs rt vList a.1 a.2 = .ok o ∧
      b.2 = if ccw then o else o.reverse) g emb := by
  unfold circularEmbedding at h
  refine (mapM_ok h).imp ?_
  intro a b hab
  obtain ⟨o, ho, hb⟩ := bind_ok.1 hab
  cases hb
  exact ⟨rfl, o, ho, rfl⟩

theorem forall₂_nbrs {g emb : Graph} {P : Int → List Int → List Int → Prop}
    (h : List.Forall₂ (fun (a b : Int × List Int) => b.1 = a.1 ∧ P a.1 a.2 b.2) g emb) :
    keys emb = keys g ∧ ∀ v, (v ∈ keys g ∧ P v (nbrs g v) (nbrs emb v)) ∨
      (v ∉ keys g ∧ nbrs g v = [] ∧ nbrs emb v = []) := by
  induction h with
  | nil => exact ⟨rfl, fun v => .inr ⟨by simp [keys], rfl, rfl⟩⟩
  | cons hab _ ih =>
    rename_i a b g emb _
    obtain ⟨a1, a2⟩ := a
    obtain ⟨b1, b2⟩ := b
    simp only at hab
    obtain ⟨rfl, hP⟩ := hab
    refine ⟨by simp [keys] at *; exact ih.1, fun v => ?_⟩
    by_cases hv : b1 = v
    · subst hv
      left; simpa [keys, nbrs] using hP
    · simp only [nbrs, if_neg hv, keys, List.map_cons, List.mem_cons, Ne.symm hv, false_or]
      exact ih.2 v

/-- C11: the embedding keeps the vertices and, for every vertex, its neighbours. -/
theorem C11_embedding_perm {S : Type} [Scalar S] (rt : Rt) (g emb : Graph) (vList : List (V3 S))
    (ccw : Bool) (h : circularEmbedding rt g vList ccw = .ok emb) :
    keys emb = keys g ∧ Embeds emb g := by
  have := forall₂_nbrs (P := fun v l m => ∃ o, orderNbrs rt vList v l = .ok o ∧
      m = if ccw then o else o.reverse) (embedding_entries h)
  refine ⟨this.1, fun v => ?_⟩
  rcases this.2 v with ⟨_, o, ho, hm⟩ | ⟨_, h1, h2⟩
  · rw [hm]
    split
    · exact orderNbrs_perm ho
    · exact (List.reverse_perm o).trans (orderNbrs_perm ho)
  · rw [h1, h2]

/-- the key looked up for a neighbour is the one computed for it -/
theorem find_key {S : Type} [Scalar S] {f : Int → Except PyErr S} {ns : List Int}
    {keyed : List (Int × S)}
    (h : ns.mapM (fun n => do let a ← f n; return (n, a)) = .ok keyed) (d : S) :
    ∀ n ∈ ns, f n = .ok (((keyed.find? (fun q => q.1 == n)).map (·.2)).getD d) := by
  replace h := mapM_ok h
  have hall : ∀ q ∈ keyed, f q.1 = .ok q.2 := by
    clear d
    induction h with
    | nil => simp
    | cons hab _ ih =>
      intro q hq
      rcases List.mem_cons.1 hq with rfl | hq
      · obtain ⟨a, ha, hb⟩ := bind_ok.1 hab
        cases hb; exact ha
      · exact ih q hq
  have hmem : ∀ n ∈ ns, ∃ q ∈ keyed, q.1 = n := by
    clear hall d
    induction h with
    | nil => simp
    | cons hab _ ih =>
      intro n hn
      rcases List.mem_cons.1 hn with rfl | hn
      · obtain ⟨a, ha, hb⟩ := bind_ok.1 hab
        cases hb; exact ⟨(n, a), by simp, rfl⟩
      · obtain ⟨q, hq, e⟩ := ih n hn
        exact ⟨q, by simp [hq], e⟩
  intro n hn
  cases hf : keyed.find? (fun q => q.1 == n) with
  | none =>
    obtain ⟨q, hq, e⟩ := hmem n hn
    have := List.find?_eq_none.1 hf q hq
    simp [e] at this
  | some q =>
    have h1 := List.mem_of_find?_eq_some hf
    have h2 := List.find?_some hf
    simp at h2
    simp only [Option.map_some, Option.getD_some]
    rw [← h2]; exact hall q h1

/-- C11: in exact arithmetic, neighbours in pairwise different directions (polar angle `ang n` in
[0, 2 pi) seen from the vertex) are listed by decreasing angle, for 'CW' by increasing angle. -/
theorem C11_embedding_sorted (rt : Rt) (g emb : Graph) (vList : List (V3 ℝ)) (ccw : Bool)
    (h : circularEmbedding rt g vList ccw = .ok emb) (v : Int) (c : V3 ℝ)
    (hc : pyGet vList v = .ok c) (hnd : (nbrs g v).Nodup) (rad ang : Int → ℝ)
    (hpos : ∀ n ∈ nbrs g v, ∃ p, pyGet vList n = .ok p ∧ 0 < rad n ∧ 0 ≤ ang n ∧
      ang n < 2 * Real.pi ∧ p.x - c.x = rad n * Real.cos (ang n) ∧
      p.y - c.y = rad n * Real.sin (ang n))
    (hdir : ∀ m ∈ nbrs g v, ∀ n ∈ nbrs g v, m ≠ n → ang m ≠ ang n) :
    (nbrs emb v).Pairwise (fun a b => if ccw then ang b < ang a else ang a < ang b) := by
  have := forall₂_nbrs (P := fun v l m => ∃ o, orderNbrs rt vList v l = .ok o ∧
      m = if ccw then o else o.reverse) (embedding_entries h)
  rcases this.2 v with ⟨_, o, ho, hm⟩ | ⟨_, h1, h2⟩
  · rw [hm]
    have key : o.Pairwise (fun a b => ang b < ang a) := by
      unfold orderNbrs at ho
      split at ho
      · rename_i hlen
        cases ho
        generalize nbrs g v = l at hlen
        match l, hlen with
        | [], _ => simp
        | [_], _ => simp
      · rw [hc, ok_bind] at ho
        obtain ⟨keyed, hkeyed, ho⟩ := bind_ok.1 ho
        cases ho
        have hk := find_key (f := fun n => do
          let p ← pyGet vList n
          let d := V3.sub p c
          pseudoangle d.x d.y) (ns := nbrs g v) (keyed := keyed)
          (by rw [← hkeyed]
              apply mapM_congr
              intro n _
              cases hp : pyGet vList n with
              | error e => rfl
              | ok p => rfl) fzero
        generalize hK : (fun n => ((keyed.find? (fun q => q.1 == n)).map (·.2)).getD (fzero : ℝ))
          = K at hk
        have hK' : ∀ n, ((keyed.find? (fun q => q.1 == n)).map (·.2)).getD (fzero : ℝ) = K n :=
          fun n => congrFun hK n
        simp only [hK'] at hk ⊢
        have hKang : ∀ m ∈ nbrs g v, ∀ n ∈ nbrs g v, (K m < K n ↔ ang m < ang n) := by
          intro m hm n hn
          obtain ⟨p, hp, r1, a1, a2, x1, y1⟩ := hpos m hm
          obtain ⟨q, hq, r2, b1, b2, x2, y2⟩ := hpos n hn
          have hkm := hk m hm
          have hkn := hk n hn
          rw [hp, ok_bind] at hkm
          rw [hq, ok_bind] at hkn
          simp only [V3.sub, ex_rnd, ex_sub, x1, y1] at hkm
          simp only [V3.sub, ex_rnd, ex_sub, x2, y2] at hkn
          obtain ⟨a, b, ha, hb, _, _, hlt, _⟩ := C05_pseudoangle_polar _ _ _ _ r1 r2 a1 a2 b1 b2
          rw [ha] at hkm; rw [hb] at hkn
          cases hkm; cases hkn
          exact hlt
        have hsorted := rt.sort_sorted (fun a b => !Scalar.lt (K a) (K b)) (nbrs g v) hnd
          (by
            intro a ha b hb hne
            simp only [Bool.not_eq_true', ex_lt_false, Bool.not_eq_false', ex_lt]
            have h1 := hKang a ha b hb
            have h2 := hKang b hb a ha
            have h3 := hdir a ha b hb hne
            constructor
            · intro h
              rw [h2]
              rcases lt_trichotomy (ang a) (ang b) with h' | h' | h'
              · have := h1.2 h'; linarith
              · exact absurd h' h3
              · exact h'
            · intro h; exact h.le)
          (by
            intro a _ b _ c' _ _ _ _
            simp only [Bool.not_eq_true', ex_lt_false]
            intro h1 h2; linarith)
        have hp := rt.sort_perm (fun a b => !Scalar.lt (K a) (K b)) (nbrs g v)
        refine ((List.Pairwise.and_mem.1 hsorted).and (hp.nodup_iff.2 hnd)).imp ?_
        · rintro a b ⟨⟨ha, hb, hab⟩, hne⟩
          simp only [Bool.not_eq_true', ex_lt_false] at hab
          have ha := hp.mem_iff.1 ha
          have hb := hp.mem_iff.1 hb
          rcases lt_trichotomy (ang a) (ang b) with h' | h' | h'
          · have := (hKang a ha b hb).2 h'; linarith
          · exact absurd h' (hdir a ha b hb hne)
          · exact h'
    cases ccw with
    | true => simpa using key
    | false =>
      simp only [Bool.false_eq_true, if_false]
      rw [List.pairwise_reverse]
      exact key
  · rw [h2]; simp

/-- C11: with valid indices it raises exactly when a vertex with at least two neighbours has one
at its own xy-position, and then it is ZeroDivisionError. -/
theorem C11_embedding_raises (rt : Rt) (g : Graph) (vList : List (V3 ℝ)) (ccw : Bool)
    (hv : ∀ vl ∈ g, (∃ c, pyGet vList vl.1 = .ok c) ∧ ∀ n ∈ vl.2, ∃ p, pyGet vList n = .ok p) :
    ((∃ e, circularEmbedding rt g vList ccw = .error e) ↔
      ∃ vl ∈ g, 2 ≤ vl.2.length ∧ ∃ n ∈ vl.2, ∃ c p, pyGet vList vl.1 = .ok c ∧
        pyGet vList n = .ok p ∧ p.x = c.x ∧ p.y = c.y) ∧
    ∀ e, circularEmbedding rt g vList ccw = .error e → e = .zeroDivision := by
  -- one vertex
  have one : ∀ vl ∈ g, ∀ e, orderNbrs rt vList vl.1 vl.2 = .error e →
      e = .zeroDivision ∧ 2 ≤ vl.2.length ∧ ∃ n ∈ vl.2, ∃ c p, pyGet vList vl.1 = .ok c ∧
        pyGet vList n = .ok p ∧ p.x = c.x ∧ p.y = c.y := by
    intro vl hvl e he
    obtain ⟨⟨c, hc⟩, hn⟩ := hv vl hvl
    unfold orderNbrs at he
    split at he
    · cases he
    · rename_i hlen
      rw [hc] at he
      simp only [pure_ok, ok_bind] at he
      rcases bind_error.1 he with he | ⟨_, _, he⟩
      · obtain ⟨n, hnm, he⟩ := mapM_error he
        obtain ⟨p, hp⟩ := hn n hnm
        rw [hp, ok_bind] at he
        rcases bind_error.1 he with he | ⟨_, _, he⟩
        · have hxy : (V3.sub p c).x = 0 ∧ (V3.sub p c).y = 0 := by
            by_contra hne
            rw [pseudoangle_eq _ _ hne] at he
            cases he
          rw [(C05_pseudoangle_raises _ _).2 hxy] at he
          cases he
          refine ⟨rfl, by omega, n, hnm, c, p, hc, hp, ?_⟩
          simp only [V3.sub, ex_rnd, ex_sub] at hxy
          exact ⟨by linarith [hxy.1], by linarith [hxy.2]⟩
        · cases he
      · cases he
  have all : ∀ e, circularEmbedding rt g vList ccw = .error e → ∃ vl ∈ g,
      orderNbrs rt vList vl.1 vl.2 = .error e := by
    intro e he
    obtain ⟨vl, hvl, he⟩ := mapM_error he
    refine ⟨vl, hvl, ?_⟩
    rcases bind_error.1 he with he | ⟨_, _, he⟩
    · exact he
    · cases he
  refine ⟨⟨?_, ?_⟩, ?_⟩
  · rintro ⟨e, he⟩
    obtain ⟨vl, hvl, he⟩ := all e he
    obtain ⟨_, h1, h2⟩ := one vl hvl e he
    exact ⟨vl, hvl, h1, h2⟩
  · rintro ⟨vl, hvl, hlen, n, hn, c, p, hc, hp, hx, hy⟩
    cases hr : circularEmbedding rt g vList ccw with
    | error e => exact ⟨e, rfl⟩
    | ok emb =>
      exfalso
      obtain ⟨b, _, hb⟩ := mapM_mem' hr vl hvl
      obtain ⟨o, ho, _⟩ := bind_ok.1 hb
      unfold orderNbrs at ho
      rw [if_neg (by omega), hc] at ho
      simp only [ok_bind, pure_ok] at ho
      obtain ⟨keyed, hk, _⟩ := bind_ok.1 ho
      obtain ⟨q, _, hq⟩ := mapM_mem' hk n hn
      rw [hp, ok_bind] at hq
      obtain ⟨a, ha, _⟩ := bind_ok.1 hq
      rw [(C05_pseudoangle_raises _ _).2 (by
        simp only [V3.sub, ex_rnd, ex_sub]; rw [hx, hy]; simp)] at ha
      cases ha
  · intro e he
    obtain ⟨vl, hvl, he⟩ := all e he
    exact (one vl hvl e he).1

/-- case: centre of a cross, neighbours east, north, west, south given in another order -/
example : circularEmbedding rt0 [((0 : Int), [1, 3, 2, 4])]
    (ground [(0, 0), (5, 0), (0, 5), (-5, 0), (0, -5)]) = .ok [(0, [4, 3, 2, 1])] := by
  decide +kernel

/-- case for the exception: the second neighbour lies on the vertex -/
example : circularEmbedding rt0 [((0 : Int), [1, 2])] (ground [(0, 0), (5, 0), (0, 0)]) =
    .error .zeroDivision := by decide +kernel

/-- case for the hypotheses of `C11_embedding_sorted`: two neighbours, east and west -/
example : ∃ emb, circularEmbedding rt0 [((0 : Int), [1, 2])]
    ([⟨0, 0, 0⟩, ⟨1, 0, 0⟩, ⟨-1, 0, 0⟩] : List (V3 ℝ)) = .ok emb ∧ nbrs emb 0 = [2, 1] := by
  have hv : ∀ vl ∈ [((0 : Int), ([1, 2] : List Int))],
      (∃ c, pyGet ([⟨0, 0, 0⟩, ⟨1, 0, 0⟩, ⟨-1, 0, 0⟩] : List (V3 ℝ)) vl.1 = .ok c) ∧
      ∀ n ∈ vl.2, ∃ p, pyGet ([⟨0, 0, 0⟩, ⟨1, 0, 0⟩, ⟨-1, 0, 0⟩] : List (V3 ℝ)) n = .ok p := by
    intro vl hvl
    simp only [List.mem_singleton] at hvl
    subst hvl
    refine ⟨⟨_, rfl⟩, ?_⟩
    intro n hn
    simp at hn
    rcases hn with rfl | rfl <;> exact ⟨_, rfl⟩
  have hr := C11_embedding_raises rt0 _ _ true hv
  cases he : circularEmbedding rt0 [((0 : Int), [1, 2])]
      ([⟨0, 0, 0⟩, ⟨1, 0, 0⟩, ⟨-1, 0, 0⟩] : List (V3 ℝ)) with
  | error e =>
    obtain ⟨vl, hvl, _, n, hn, c, p, hc, hp, hx, _⟩ := hr.1.1 ⟨e, he⟩
    simp only [List.mem_singleton] at hvl
    subst hvl
    simp at hn
    rcases hn with rfl | rfl <;> cases hc <;> cases hp <;> norm_num at hx
  | ok emb =>
    refine ⟨emb, rfl, ?_⟩
    have hs := C11_embedding_sorted rt0 _ emb _ true he 0 ⟨0, 0, 0⟩ rfl (by decide) (fun _ => 1)
      (fun n => if n = 1 then 0 else Real.pi)
      (by
        intro n hn
        have := Real.pi_pos
        simp [nbrs] at hn
        rcases hn with rfl | rfl
        · exact ⟨⟨1, 0, 0⟩, rfl, by norm_num, by norm_num, by norm_num; linarith, by norm_num,
            by norm_num⟩
        · exact ⟨⟨-1, 0, 0⟩, rfl, by norm_num, by norm_num; linarith, by norm_num; linarith,
            by norm_num, by norm_num⟩)
      (by
        have := Real.pi_ne_zero
        intro m hm n hn hne
        simp [nbrs] at hm hn
        rcases hm with rfl | rfl <;> rcases hn with rfl | rfl <;> simp_all [eq_comm])
    have hp := (C11_embedding_perm rt0 _ emb _ true he).2 0
    have h12 := hp.trans (show nbrs [((0 : Int), ([1, 2] : List Int))] 0 |>.Perm [1, 2] from
      List.Perm.refl _)
    have hlen := h12.length_eq
    match hn : nbrs emb 0, hlen with
    | [a, b], _ =>
      rw [hn] at h12 hs
      have ha := h12.mem_iff.1 (by simp : a ∈ [a, b])
      have hb := h12.mem_iff.1 (by simp : b ∈ [a, b])
      simp at ha hb hs
      have hpi := Real.pi_pos
      rcases ha with rfl | rfl <;> rcases hb with rfl | rfl <;> simp at hs ⊢
      linarith

/-! ### C12, C15 -/

theorem traceFaces_unique {rt : Rt} {g emb : Graph} (hs : Simple g) (he : Embeds emb g)
    {fs : List (List Dart)} (h : traceFaces rt g emb = .ok fs) :
    fs.flatten.Perm (edgeSet g) ∧ ∀ f ∈ fs, ClosedChain emb f := by
  obtain ⟨fs', h', p, c⟩ := traceFaces_ok rt hs he
  rw [h] at h'; cases h'; exact ⟨p, c⟩

/-- C12: on a simple graph the tracing does not raise, every directed edge of the graph occurs
exactly once in exactly one face, and nothing else occurs. -/
theorem C12_faces_partition (rt : Rt) (g emb : Graph) (hs : Simple g) (he : Embeds emb g) :
    ∃ fs, traceFaces rt g emb = .ok fs ∧ fs.flatten.Nodup ∧
      ∀ d, d ∈ fs.flatten ↔ HasDart g d := by
  obtain ⟨fs, h, p, _⟩ := traceFaces_ok rt hs he
  refine ⟨fs, h, p.nodup_iff.2 (nodup_edgeSet g), fun d => ?_⟩
  rw [p.mem_iff, mem_edgeSet_simple hs]

/-- C12 for the public function: `faces()` never raises on such a graph. -/
theorem C12_faces_no_raise (rt : Rt) (g emb : Graph) (hs : Simple g) (he : Embeds emb g) (n : Int) :
    ∃ fs, faces rt g emb n = .ok fs := by
  obtain ⟨fs, h, _⟩ := traceFaces_ok rt hs he
  exact ⟨_, by unfold faces; rw [h]; rfl⟩

/-- C15: every traced face is a closed walk along the embedding order. -/
theorem C15_face_cycle (rt : Rt) (g emb : Graph) (hs : Simple g) (he : Embeds emb g)
    (fs : List (List Dart)) (h : traceFaces rt g emb = .ok fs) : ∀ f ∈ fs, FaceCycle emb f :=
  fun f hf => ((traceFaces_unique hs he h).2 f hf).faceCycle

/-! ### C14 -/

theorem rotateFace_spec (n : Int) (f : List Dart) :
    ∃ k, k ≤ f.length ∧ rotateFace n f = f.drop k ++ f.take k ∧
      ((∃ d ∈ f, d.1 < n ∧ d.2 < n) →
        ∃ d, (rotateFace n f).head? = some d ∧ d.1 < n ∧ d.2 < n) := by
  unfold rotateFace
  cases hf : f.findIdx? (isOrig n) with
  | none =>
    refine ⟨0, by simp, by simp, ?_⟩
    rintro ⟨d, hd, h1, h2⟩
    rw [List.findIdx?_eq_none_iff] at hf
    have := hf d hd
    simp [isOrig] at this
    omega
  | some i =>
    rw [List.findIdx?_eq_some_iff_getElem] at hf
    obtain ⟨hi, hp, _⟩ := hf
    refine ⟨i, by omega, rfl, fun _ => ⟨f[i], ?_, ?_⟩⟩
    · rw [List.head?_append, List.head?_drop, List.getElem?_eq_getElem hi]; rfl
    · simpa [isOrig] using hp

/-- the vertices of a rotated closed walk: position `i` of the rotation is position `i + k` of
the walk -/
theorem rot_getElem? {α : Type} (f : List α) (k i : Nat) (hk : k ≤ f.length) (hi : i < f.length) :
    (f.drop k ++ f.take k)[i]? = f[(i + k) % f.length]? := by
  rw [List.getElem?_append]
  simp only [List.length_drop]
  split
  · rename_i h
    rw [List.getElem?_drop, Nat.mod_eq_of_lt (by omega), Nat.add_comm]
  · rename_i h
    rw [List.getElem?_take, if_pos (by omega)]
    have : i + k = (i - (f.length - k)) + f.length := by omega
    rw [this, Nat.add_mod_right, Nat.mod_eq_of_lt (by omega)]

/-- C14: `faces()` returns, in order, the traced faces that have a vertex with index >= n, each
as its list of vertices starting somewhere on it, and no others; when the face has a directed edge
between two polygon vertices, the returned face starts with such an edge. -/
theorem C14_faces_filter (rt : Rt) (g emb : Graph) (hs : Simple g) (he : Embeds emb g) (n : Int)
    (fs : List (List Dart)) (h : traceFaces rt g emb = .ok fs) :
    ∃ out, faces rt g emb n = .ok out ∧
      List.Forall₂ (fun (f : List Dart) (r : List Int) =>
        (∃ k, k ≤ f.length ∧ r = (f.drop k ++ f.take k).map (·.1)) ∧
        ((∃ d ∈ f, d.1 < n ∧ d.2 < n) →
          ∃ a b, r[0]? = some a ∧ r[1 % r.length]? = some b ∧ a < n ∧ b < n))
        (fs.filter (fun f => f.any (fun d => decide (n ≤ d.1)))) out := by
  refine ⟨finalFaces n fs, by unfold faces; rw [h]; rfl, ?_⟩
  have hc := (traceFaces_unique hs he h).2
  clear h
  unfold finalFaces
  induction fs with
  | nil => exact .nil
  | cons f fs ih =>
    have ih := ih (fun f hf => hc f (by simp [hf]))
    obtain ⟨k, hk, hrot, hstart⟩ := rotateFace_spec n f
    have hany : ((rotateFace n f).map (·.1)).any (fun i => decide (n ≤ i)) =
        f.any (fun d => decide (n ≤ d.1)) := by
      rw [hrot, List.any_map, List.any_append, Bool.or_comm, ← List.any_append,
        List.take_append_drop]
      rfl
    rw [List.map_cons, List.filter_cons, List.filter_cons, hany]
    split
    · refine .cons ⟨⟨k, hk, by rw [hrot]⟩, ?_⟩ ih
      intro hd
      obtain ⟨d, hhead, h1, h2⟩ := hstart hd
      have hcyc := (hc f (by simp)).faceCycle
      have hlen : (rotateFace n f).length = f.length := by rw [hrot]; simp; omega
      have hpos : 0 < f.length := List.length_pos_iff.2 hcyc.1
      rw [List.head?_eq_getElem?] at hhead
      have h0 : f[(0 + k) % f.length]? = some d := by
        rw [← rot_getElem? f k 0 hk hpos, ← hrot]; exact hhead
      have hm : 1 % f.length < f.length := Nat.mod_lt _ hpos
      obtain ⟨e, he'⟩ : ∃ e, (rotateFace n f)[1 % f.length]? = some e :=
        ⟨_, List.getElem?_eq_getElem (by rw [hlen]; exact hm)⟩
      have h1' : f[((0 + k) % f.length + 1) % f.length]? = some e := by
        rw [← he', hrot, rot_getElem? f k _ hk hm]
        congr 1
        rw [Nat.zero_add, Nat.mod_add_mod, Nat.mod_add_mod, Nat.add_comm]
      have ht := (hcyc.2 _ _ _ h0 h1').1
      refine ⟨d.1, e.1, ?_, ?_, h1, ?_⟩
      · rw [List.getElem?_map, hhead]; rfl
      · rw [List.length_map, hlen, List.getElem?_map, he']; rfl
      · rw [ht]; exact h2
    · exact ih

/-- C14: no returned face consists of polygon vertices only. -/
theorem C14_faces_inner_vertex (rt : Rt) (g emb : Graph) (n : Int) (out : List (List Int))
    (h : faces rt g emb n = .ok out) : ∀ r ∈ out, ∃ i ∈ r, n ≤ i := by
  unfold faces at h
  obtain ⟨fs, _, h⟩ := bind_ok.1 h
  cases h
  intro r hr
  unfold finalFaces at hr
  have := (List.mem_filter.1 hr).2
  simpa using this

/-- C15 for the result of `faces()`: consecutive vertices (cyclically) are joined by an edge, and
after going from `a` to `b` the face goes on to the neighbour after `a` in `b`'s list; when none
of its vertices has degree one, the face has at least three vertices. -/
theorem C15_faces_walk (rt : Rt) (g emb : Graph) (hs : Simple g) (he : Embeds emb g) (n : Int)
    (out : List (List Int)) (h : faces rt g emb n = .ok out) :
    ∀ r ∈ out, r ≠ [] ∧
      (∀ i a b c, r[i]? = some a → r[(i + 1) % r.length]? = some b →
        r[(i + 2) % r.length]? = some c → b ∈ nbrs g a ∧ Follows (nbrs emb b) a c) ∧
      ((∀ v ∈ r, (nbrs g v).length ≠ 1) → 3 ≤ r.length) := by
  obtain ⟨fs, hfs, hperm, _⟩ := traceFaces_ok rt hs he
  obtain ⟨out', hout, hall⟩ := C14_faces_filter rt g emb hs he n fs hfs
  rw [h] at hout; cases hout
  intro r hr
  obtain ⟨f, hf, ⟨k, hk, hrk⟩, _⟩ : ∃ f ∈ fs, (∃ k, k ≤ f.length ∧
      r = (f.drop k ++ f.take k).map (·.1)) ∧ True := by
    obtain ⟨i, hi⟩ := List.mem_iff_getElem?.1 hr
    have hlen := hall.length_eq
    have hi' := (List.getElem?_eq_some_iff.1 hi).1
    obtain ⟨f, hf⟩ : ∃ f, (fs.filter (fun f => f.any (fun d => decide (n ≤ d.1))))[i]? = some f :=
      ⟨_, List.getElem?_eq_getElem (by omega)⟩
    have := List.forall₂_iff_get.1 hall
    have h3 := this.2 i (by omega) hi'
    rw [List.getElem?_eq_getElem (by omega)] at hf
    rw [List.getElem?_eq_getElem hi'] at hi
    cases hf; cases hi
    exact ⟨_, (List.mem_filter.1 (List.getElem_mem _)).1, h3.1, trivial⟩
  have hcyc := C15_face_cycle rt g emb hs he fs hfs f hf
  have hpos : 0 < f.length := List.length_pos_iff.2 hcyc.1
  have hlen : r.length = f.length := by rw [hrk]; simp; omega
  have hget : ∀ i v, i < f.length → r[i]? = some v → ∃ d, f[(i + k) % f.length]? = some d ∧ d.1 = v := by
    intro i v hi hv
    rw [hrk, List.getElem?_map, rot_getElem? f k i hk hi] at hv
    cases hd : f[(i + k) % f.length]? with
    | none => rw [hd] at hv; cases hv
    | some d => rw [hd] at hv; cases hv; exact ⟨d, rfl, rfl⟩
  have hnext : ∀ i, (((i + k) % f.length) + 1) % f.length = ((i + 1) % f.length + k) % f.length := by
    intro i
    rw [Nat.mod_add_mod, Nat.mod_add_mod]
    congr 1; omega
  have hwalk : ∀ i a b c, r[i]? = some a → r[(i + 1) % r.length]? = some b →
        r[(i + 2) % r.length]? = some c → b ∈ nbrs g a ∧ Follows (nbrs emb b) a c := by
    intro i a b c ha hb hc
    have hi : i < f.length := by rw [← hlen]; exact (List.getElem?_eq_some_iff.1 ha).1
    rw [hlen] at hb hc
    obtain ⟨d, hd, rfl⟩ := hget i a hi ha
    obtain ⟨d', hd', rfl⟩ := hget _ b (Nat.mod_lt _ hpos) hb
    obtain ⟨d'', hd'', rfl⟩ := hget _ c (Nat.mod_lt _ hpos) hc
    have t1 := hcyc.2 _ _ _ hd (by rw [hnext]; exact hd')
    have t2 := hcyc.2 _ _ _ hd' (by
      rw [hnext]
      have : ((i + 1) % f.length + 1) % f.length = (i + 2) % f.length := by rw [Nat.mod_add_mod]
      rw [this]; exact hd'')
    have hdm : HasDart g d := by
      rw [← mem_edgeSet_simple hs, ← hperm.mem_iff]
      exact List.mem_flatten.2 ⟨f, hf, List.mem_of_getElem? hd⟩
    rw [t1.1, t2.1]
    exact ⟨hdm, t1.2⟩
  refine ⟨by intro h0; rw [h0] at hlen; simp at hlen; omega, hwalk, ?_⟩
  intro hdeg
  apply Classical.byContradiction
  intro hlt
  have hlt : r.length = 1 ∨ r.length = 2 := by omega
  obtain ⟨a, ha⟩ : ∃ a, r[0]? = some a := ⟨_, List.getElem?_eq_getElem (by omega)⟩
  obtain ⟨b, hb⟩ : ∃ b, r[1 % r.length]? = some b :=
    ⟨_, List.getElem?_eq_getElem (Nat.mod_lt _ (by omega))⟩
  rcases hlt with h1 | h2
  · -- a loop
    obtain ⟨hab, _⟩ := hwalk 0 a b b ha (by simpa using hb) (by
      rw [h1] at hb ⊢; simpa [Nat.mod_one] using hb)
    rw [h1] at hb
    simp at hb
    rw [ha] at hb; cases hb
    exact hs.irrefl _ hab
  · -- back and forth
    obtain ⟨hab, hfol⟩ := hwalk 0 a b a ha (by simpa using hb) (by rw [h2]; simpa using ha)
    obtain ⟨i, h3, h4⟩ := hfol
    have hnd : (nbrs emb b).Nodup := (he b).nodup_iff.2 (hs.nodup b)
    have hi := (List.getElem?_eq_some_iff.1 h3).1
    have := nodup_idx hnd h3 h4
    have hl1 : (nbrs emb b).length = 1 := by
      rcases Nat.lt_or_ge (i + 1) (nbrs emb b).length with h | h
      · rw [Nat.mod_eq_of_lt h] at this; omega
      · have e : i + 1 = (nbrs emb b).length := by omega
        rw [e, Nat.mod_self] at this; omega
    rw [(he b).length_eq] at hl1
    exact hdeg b (List.mem_of_getElem? hb) hl1

/-! ### C13 -/

/-- two closed walks through the same directed edge are rotations of each other -/
theorem cycle_rotated {emb : Graph} (hn : ∀ v, (nbrs emb v).Nodup) {f f' : List Dart}
    (hf : FaceCycle emb f) (hf' : FaceCycle emb f') (hd : f.Nodup) (hd' : f'.Nodup) {d : Dart}
    (h : d ∈ f) (h' : d ∈ f') : f ~r f' := by
  obtain ⟨i, hi, rfl⟩ := List.mem_iff_getElem.1 h
  obtain ⟨j, hj, hij⟩ := List.mem_iff_getElem.1 h'
  have hp : 0 < f.length := by omega
  have hp' : 0 < f'.length := by omega
  have key : ∀ m, f[(i + m) % f.length]'(Nat.mod_lt _ hp) =
      f'[(j + m) % f'.length]'(Nat.mod_lt _ hp') := by
    intro m
    induction m with
    | zero => simp only [Nat.add_zero, Nat.mod_eq_of_lt hi, Nat.mod_eq_of_lt hj, hij]
    | succ m ih =>
      have t := hf.2 ((i + m) % f.length) _ _ (List.getElem?_eq_getElem (Nat.mod_lt _ hp))
        (List.getElem?_eq_getElem (Nat.mod_lt _ hp))
      have t' := hf'.2 ((j + m) % f'.length) _ _ (List.getElem?_eq_getElem (Nat.mod_lt _ hp'))
        (List.getElem?_eq_getElem (Nat.mod_lt _ hp'))
      rw [← ih] at t'
      have := t.unique hn t'
      simpa [Nat.mod_add_mod, ← Nat.add_assoc] using this
  have hlen : f.length = f'.length := by
    apply Nat.dvd_antisymm
    · have h1 := key f'.length
      have h2 : f[(i + f'.length) % f.length]'(Nat.mod_lt _ hp) = f[i] := by
        rw [h1]; simp only [Nat.add_mod_right, Nat.mod_eq_of_lt hj, hij]
      have h3 := (List.Nodup.getElem_inj_iff hd).1 h2
      have h4 : (i + f'.length) % f.length = (i + 0) % f.length := by
        rw [h3, Nat.add_zero, Nat.mod_eq_of_lt hi]
      exact (Nat.modEq_zero_iff_dvd.1 (Nat.ModEq.add_left_cancel' i h4))
    · have h1 := key f.length
      have h2 : f'[(j + f.length) % f'.length]'(Nat.mod_lt _ hp') = f'[j] := by
        rw [← h1]; simp only [Nat.add_mod_right, Nat.mod_eq_of_lt hi, hij]
      have h3 := (List.Nodup.getElem_inj_iff hd').1 h2
      have h4 : (j + f.length) % f'.length = (j + 0) % f'.length := by
        rw [h3, Nat.add_zero, Nat.mod_eq_of_lt hj]
      exact (Nat.modEq_zero_iff_dvd.1 (Nat.ModEq.add_left_cancel' j h4))
  have heq : f.rotate i = f'.rotate j := by
    apply List.ext_getElem
    · simp [hlen]
    · intro m h1 h2
      rw [List.getElem_rotate, List.getElem_rotate]
      have := key m
      simpa [Nat.add_comm] using this
  exact (List.IsRotated.forall f i).symm.trans (heq ▸ List.IsRotated.forall f' j)

theorem cycles_match {emb : Graph} (hn : ∀ v, (nbrs emb v).Nodup) (fs fs' : List (List Dart))
    (hf : ∀ f ∈ fs, FaceCycle emb f) (hf' : ∀ f ∈ fs', FaceCycle emb f)
    (hp : fs.flatten.Perm fs'.flatten) (hnd : fs.flatten.Nodup) :
    ∃ l : List (List Dart), l.Perm fs' ∧ List.Forall₂ (· ~r ·) fs l := by
  induction fs generalizing fs' with
  | nil =>
    refine ⟨[], ?_, .nil⟩
    cases fs' with
    | nil => exact .refl _
    | cons a b =>
      have := hp.symm.eq_nil
      simp at this
      exact absurd this.1 (hf' a (by simp)).1
  | cons f fs ih =>
    have hc := hf f (by simp)
    obtain ⟨d, hd⟩ := List.exists_mem_of_ne_nil _ hc.1
    have hd' : d ∈ fs'.flatten := hp.mem_iff.1 (by simp [hd])
    obtain ⟨f', hf'm, hdf'⟩ := List.mem_flatten.1 hd'
    have hpe := List.perm_cons_erase hf'm
    have hpe2 : fs'.flatten.Perm (f' ++ (fs'.erase f').flatten) := by
      simpa using hpe.flatten
    rw [List.flatten_cons] at hp hnd
    have hnd' : (f' ++ (fs'.erase f').flatten).Nodup := (hp.trans hpe2).nodup_iff.1 hnd
    have hrot := cycle_rotated hn hc (hf' f' hf'm) (List.nodup_append.1 hnd).1
      (List.nodup_append.1 hnd').1 hd hdf'
    have hrest : fs.flatten.Perm (fs'.erase f').flatten := by
      have := (hp.trans hpe2).trans (hrot.perm.symm.append_right _)
      exact (List.perm_append_left_iff f).1 this
    obtain ⟨l, hl, hl2⟩ := ih (fs'.erase f') (fun g hg => hf g (by simp [hg]))
      (fun g hg => hf' g (List.mem_of_mem_erase hg)) hrest (List.nodup_append.1 hnd).2.1
    exact ⟨f' :: l, (hl.cons f').trans hpe.symm, .cons hrot hl2⟩

theorem rotateFace_rotated (n : Int) (f : List Dart) : f ~r rotateFace n f := by
  obtain ⟨k, hk, h, _⟩ := rotateFace_spec n f
  rw [h, ← List.rotate_eq_drop_append_take hk]
  exact ⟨k, rfl⟩

theorem sameCycles_of_forall₂ {α : Type} {l₁ l l₂ : List (List α)} (hp : l.Perm l₂)
    (h : List.Forall₂ (· ~r ·) l₁ l) : SameCycles l₁ l₂ := by
  refine ⟨l, hp, h.length_eq.symm, ?_⟩
  intro i a b ha hb
  obtain ⟨hi, rfl⟩ := List.getElem?_eq_some_iff.1 ha
  obtain ⟨hj, rfl⟩ := List.getElem?_eq_some_iff.1 hb
  have := (List.forall₂_iff_get.1 h).2 i hi hj
  simp only [List.get_eq_getElem] at this
  obtain ⟨k, hk, e⟩ := List.isRotated_iff_mod.1 this
  exact ⟨k, hk, by rw [← List.rotate_eq_drop_append_take hk]; exact e.symm⟩

/-- exactly one pair of cyclically consecutive entries of `r` are both smaller than `n` -/
def OneOrigEdge (n : Int) (r : List Int) : Prop :=
  ∃ i, i < r.length ∧ ∀ j, j < r.length →
    ((∃ x y, r[j]? = some x ∧ r[(j + 1) % r.length]? = some y ∧ x < n ∧ y < n) ↔ j = i)

/-- C13: two runs, with any choices of the runtime and any order of the dictionaries, return the
same faces up to their order and their first vertex; a face with exactly one polygon edge is
returned identically. -/
theorem C13_faces_runtime_independent (rt rt' : Rt) (g g' emb emb' : Graph) (hs : Simple g)
    (hs' : Simple g') (he : Embeds emb g) (he' : Embeds emb' g')
    (hsame : ∀ v, nbrs emb v = nbrs emb' v) (n : Int) (A B : List (List Int))
    (hA : faces rt g emb n = .ok A) (hB : faces rt' g' emb' n = .ok B) :
    SameCycles A B ∧ ∀ a ∈ A, OneOrigEdge n a → a ∈ B := by
  obtain ⟨fs, hfs, hp, hc⟩ := traceFaces_ok rt hs he
  obtain ⟨fs', hfs', hp', hc'⟩ := traceFaces_ok rt' hs' he'
  have hn : ∀ v, (nbrs emb v).Nodup := fun v => (he v).nodup_iff.2 (hs.nodup v)
  have hcc : ∀ f ∈ fs', FaceCycle emb f := by
    intro f hf
    have h := (hc' f hf).faceCycle
    refine ⟨h.1, fun i a b ha hb => ?_⟩
    have := h.2 i a b ha hb
    exact ⟨this.1, by rw [hsame]; exact this.2⟩
  have hset : (edgeSet g).Perm (edgeSet g') := by
    rw [List.perm_ext_iff_of_nodup (nodup_edgeSet _) (nodup_edgeSet _)]
    intro d
    rw [mem_edgeSet_simple hs, mem_edgeSet_simple hs']
    unfold HasDart
    rw [← (he d.1).mem_iff, ← (he' d.1).mem_iff, hsame]
  obtain ⟨l, hl, hrot⟩ := cycles_match hn fs fs' (fun f hf => (hc f hf).faceCycle) hcc
    (hp.trans (hset.trans hp'.symm)) (hp.nodup_iff.2 (nodup_edgeSet g))
  have eA : A = finalFaces n fs := by
    unfold faces at hA; rw [hfs] at hA; cases hA; rfl
  have eB : B = finalFaces n fs' := by
    unfold faces at hB; rw [hfs'] at hB; cases hB; rfl
  have hfin : List.Forall₂ (· ~r ·) (finalFaces n fs) (finalFaces n l) := by
    unfold finalFaces
    clear hfs hfs' hp hp' hc hl eA
    induction hrot with
    | nil => exact .nil
    | @cons f f' fs l h1 _ ih =>
      have h2 : (rotateFace n f).map (·.1) ~r (rotateFace n f').map (·.1) :=
        (((rotateFace_rotated n f).symm.trans h1).trans (rotateFace_rotated n f')).map _
      have hany : ((rotateFace n f).map (·.1)).any (fun i => decide (n ≤ i)) =
          ((rotateFace n f').map (·.1)).any (fun i => decide (n ≤ i)) := by
        rw [Bool.eq_iff_iff, List.any_eq_true, List.any_eq_true]
        simp only [h2.perm.mem_iff]
      rw [List.map_cons, List.map_cons, List.filter_cons, List.filter_cons, hany]
      split
      · exact .cons h2 ih
      · exact ih
  have hpB : (finalFaces n l).Perm B := by
    rw [eB]; exact (hl.map _).filter _
  subst eA
  refine ⟨sameCycles_of_forall₂ hpB hfin, ?_⟩
  intro a ha ⟨i, hi, huniq⟩
  obtain ⟨p, hpi⟩ := List.mem_iff_getElem.1 ha
  obtain ⟨hp1, rfl⟩ := hpi
  have hp2 : p < (finalFaces n l).length := by rw [← hfin.length_eq]; exact hp1
  have hr := (List.forall₂_iff_get.1 hfin).2 p hp1 hp2
  simp only [List.get_eq_getElem] at hr
  have hbB : (finalFaces n l)[p] ∈ B := hpB.mem_iff.1 (List.getElem_mem _)
  generalize (finalFaces n l)[p] = b at hr hbB
  generalize hae : (finalFaces n fs)[p] = a at hr hi huniq ha
  -- a face with a polygon edge starts with one
  have start : ∀ (rt : Rt) (g emb : Graph) (hs : Simple g) (he : Embeds emb g) (out : List (List Int)),
      faces rt g emb n = .ok out → ∀ r ∈ out,
      (∃ j, j < r.length ∧ ∃ x y, r[j]? = some x ∧ r[(j + 1) % r.length]? = some y ∧ x < n ∧ y < n) →
      ∃ x y, r[0]? = some x ∧ r[1 % r.length]? = some y ∧ x < n ∧ y < n := by
    intro rt g emb hs he out hout r hr ⟨j, hj, x, y, hx, hy, hxn, hyn⟩
    obtain ⟨fs, hfs, hperm, hcl⟩ := traceFaces_ok rt hs he
    obtain ⟨out', hout', hall⟩ := C14_faces_filter rt g emb hs he n fs hfs
    rw [hout] at hout'; cases hout'
    obtain ⟨q, hq, rfl⟩ := List.mem_iff_getElem.1 hr
    have hq' := hall.length_eq ▸ hq
    obtain ⟨⟨k, hk, hrk⟩, h2⟩ := (List.forall₂_iff_get.1 hall).2 q hq' hq
    simp only [List.get_eq_getElem] at hrk h2 hk
    obtain ⟨a, b, h3, h4, h5, h6⟩ := h2 (by
      generalize hfe : (fs.filter (fun f => f.any (fun d => decide (n ≤ d.1))))[q] = f at hrk hk
      have hfm : f ∈ fs := by
        rw [← hfe]; exact (List.mem_filter.1 (List.getElem_mem _)).1
      have hcy := (hcl f hfm).faceCycle
      rw [hrk] at hx hy hj
      have hlen : ((f.drop k ++ f.take k).map (·.1)).length = f.length := by simp; omega
      rw [hlen] at hy hj
      rw [List.getElem?_map, rot_getElem? f k _ hk hj] at hx
      rw [List.getElem?_map, rot_getElem? f k _ hk (Nat.mod_lt _ (by omega))] at hy
      obtain ⟨d, hd, rfl⟩ := Option.map_eq_some_iff.1 hx
      obtain ⟨e, he, rfl⟩ := Option.map_eq_some_iff.1 hy
      have := hcy.2 _ _ _ hd (by
        rw [← he]; congr 1
        rw [Nat.mod_add_mod, Nat.mod_add_mod]; congr 1; omega)
      exact ⟨d, List.mem_of_getElem? hd, hxn, by rw [← this.1]; exact hyn⟩)
    exact ⟨a, b, h3, h4, h5, h6⟩
  have hpos : 0 < a.length := by omega
  obtain ⟨x, y, hx, hy, hxn, hyn⟩ := start rt g emb hs he _ hA a ha
    ⟨i, hi, (huniq i hi).2 rfl⟩
  have h0 : 0 = i := (huniq 0 hpos).1 ⟨x, y, hx, by simpa using hy, hxn, hyn⟩
  subst h0
  obtain ⟨k, hk, hkb⟩ := List.isRotated_iff_mod.1 hr
  rw [List.rotate_eq_drop_append_take hk] at hkb
  have hblen : b.length = a.length := hr.perm.length_eq.symm
  obtain ⟨x', y', hx', hy', hxn', hyn'⟩ := start rt' g' emb' hs' he' _ hB b hbB (by
    -- the polygon edge of `a` also occurs in `b`
    refine ⟨(a.length - k) % a.length, by rw [hblen]; exact Nat.mod_lt _ hpos, x, y, ?_, ?_, hxn, hyn⟩
    · rw [← hkb, rot_getElem? a k _ hk (Nat.mod_lt _ hpos), ← hx]
      congr 1
      rw [Nat.mod_add_mod, Nat.sub_add_cancel hk, Nat.mod_self]
    · rw [hblen, ← hkb, rot_getElem? a k _ hk (Nat.mod_lt _ hpos), ← hy]
      congr 1
      rw [Nat.mod_add_mod, Nat.add_assoc, Nat.mod_add_mod, Nat.add_comm 1 k, ← Nat.add_assoc,
        Nat.sub_add_cancel hk, Nat.add_mod_left])
  rw [← hkb, rot_getElem? a k 0 hk hpos, Nat.zero_add] at hx'
  rw [hblen, ← hkb, rot_getElem? a k _ hk (Nat.mod_lt _ hpos), Nat.mod_add_mod] at hy'
  have hk0 := (huniq (k % a.length) (Nat.mod_lt _ hpos)).1 ⟨x', y', hx', by
    rw [Nat.mod_add_mod, Nat.add_comm]; exact hy', hxn', hyn'⟩
  have : k = 0 ∨ k = a.length := by
    rcases Nat.lt_or_ge k a.length with h | h
    · rw [Nat.mod_eq_of_lt h] at hk0; exact .inl hk0
    · exact .inr (by omega)
  have hab : b = a := by
    rw [← hkb]
    rcases this with rfl | rfl <;> simp
  rw [hab] at hbB; exact hbB

/-! ### C16 -/

/-- C16: on every graph and with every embedding, matching or not, `faces()` returns or raises a
Python exception: the loop ends. -/
theorem C16_faces_terminates (rt : Rt) (g emb : Graph) (n : Int) :
    faces rt g emb n ≠ .error .fuel := by
  unfold faces
  intro hf
  rcases bind_error.1 hf with hf | ⟨fs, _, hf⟩
  · unfold traceFaces at hf
    simp only at hf
    generalize hE : edgeSet g = E at hf
    have hD : ∀ v w, w ∈ nbrs emb v → (v, w) ∈ E ++ edges emb := by
      intro v w hw
      obtain ⟨l, h1, h2⟩ := mem_nbrs_entry hw
      refine List.mem_append_right _ (List.mem_flatMap.2 ⟨(v, l), h1, List.mem_map.2 ⟨w, h2, rfl⟩⟩)
    have hlen : (E ++ edges emb).length = E.length + (edges emb).length := List.length_append
    cases hpk : pickDart rt E with
    | none =>
      rw [hpk] at hf
      have : E = [] := by
        apply Classical.byContradiction
        intro hne
        obtain ⟨e, he⟩ := pickDart_total (rt := rt) hne
        rw [he] at hpk; cases hpk
      subst this
      revert hf
      refine traceLoop_fuel rt _ hD _ _ _ _ (by simp) (by simp) (by simp) ?_
      rw [hlen]; simp
    | some e =>
      rw [hpk] at hf
      have hem := pickDart_mem hpk
      revert hf
      refine traceLoop_fuel rt _ hD _ _ _ _ (by simp) (by simp [hem])
        (fun d hd => List.mem_append_left _ (List.mem_of_mem_erase hd)) ?_
      have hl := List.length_erase_of_mem hem
      have hpos : 0 < E.length := List.length_pos_of_mem hem
      rw [hl, hlen]
      simp only [List.length_singleton]
      generalize (edges emb).length = m
      generalize E.length = k at *
      have h1 : (k - 1) * (k + m + 1) ≤ k * (k + m + 1) := Nat.mul_le_mul_right _ (by omega)
      have h2 : (k + 1) * (k + m + 2) = k * (k + m + 2) + (k + m + 2) := by rw [Nat.succ_mul]
      have h3 : k * (k + m + 2) = k * (k + m + 1) + k := by rw [← Nat.mul_succ]
      omega
  · cases hf

/-- the edges of a triangle, the first one added twice -/
def doubled : List Dart := [(0, 1), (1, 2), (2, 0), (0, 1)]

/-- C16: with a repeated edge `faces()` can raise 'Endless loop catched' although the embedding was
computed from the graph itself. -/
theorem C16_repeated_edge_raises :
    ∃ emb, circularEmbedding rt0 (addEdges rt0 [] doubled) (ground [(0, 0), (4, 0), (0, 3)]) =
      .ok emb ∧ faces rt0 (addEdges rt0 [] doubled) emb 2 = .error .endlessFaces := by
  exact ⟨_, rfl, by decide +kernel⟩

/-! ### a case for C12-C15 -/

/-- a triangle with a centre (vertex 3) and a dangling edge to vertex 4 -/
def wheel : List Dart := [(0, 1), (1, 2), (2, 0), (0, 3), (1, 3), (2, 3), (3, 4)]

def wheelEmb : Graph := [(0, [2, 3, 1]), (1, [0, 3, 2]), (2, [1, 3, 0]), (3, [0, 4, 2, 1]), (4, [3])]

/-- another runtime -/
def rt1 : Rt := { rt0 with popFirst := fun _ _ => false, pick := fun _ => 3 }

theorem wheel_simple (rt : Rt) : Simple (addEdges rt [] wheel) :=
  C10_simple rt _ (joins_le_one (by decide))

theorem wheel_embeds (rt : Rt) : Embeds wheelEmb (addEdges rt [] wheel) := by
  intro v
  rw [C10_neighbours]
  by_cases h : v ∈ ([0, 1, 2, 3, 4] : List Int)
  · simp only [List.mem_cons, List.not_mem_nil, or_false] at h
    rcases h with rfl | rfl | rfl | rfl | rfl <;> decide
  · simp only [List.mem_cons, List.not_mem_nil, or_false, not_or] at h
    obtain ⟨h0, h1, h2, h3, h4⟩ := h
    simp [wheelEmb, wheel, nbrs, Ne.symm h0, Ne.symm h1, Ne.symm h2, Ne.symm h3, Ne.symm h4]

/-- case: the two runs differ in the order of the faces and in nothing else -/
example : faces rt0 (addEdges rt0 [] wheel) wheelEmb 3 =
      .ok [[0, 1, 3], [2, 0, 3, 4, 3], [1, 2, 3]] ∧
    faces rt1 (addEdges rt1 [] wheel) wheelEmb 3 =
      .ok [[1, 2, 3], [2, 0, 3, 4, 3], [0, 1, 3]] := by
  decide

/-- the hypotheses of C12-C15 hold for it -/
example (rt : Rt) : ∃ fs, traceFaces rt (addEdges rt [] wheel) wheelEmb = .ok fs ∧
    fs.flatten.Nodup ∧ ∀ d, d ∈ fs.flatten ↔ HasDart (addEdges rt [] wheel) d :=
  C12_faces_partition rt _ _ (wheel_simple rt) (wheel_embeds rt)

example : OneOrigEdge 3 [2, 0, 3, 4, 3] := ⟨0, by decide, by
  intro j hj
  simp only [List.length_cons, List.length_nil] at hj
  have : j = 0 ∨ j = 1 ∨ j = 2 ∨ j = 3 ∨ j = 4 := by omega
  rcases this with rfl | rfl | rfl | rfl | rfl <;> simp⟩

end Polyskel
