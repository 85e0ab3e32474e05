import Mathlib.Data.List.Chain
import Mathlib.Data.List.Nodup
import Verif.Spec.Planar
import Verif.Proofs.Except
/-
Lemmas about the face graph.
-/
namespace Polyskel
open Graph

/-! ### dictionary -/

theorem nbrs_of_not_mem {g : Graph} {v : Int} (h : v ∉ keys g) : nbrs g v = [] := by
  induction g with
  | nil => rfl
  | cons p g ih =>
    obtain ⟨w, l⟩ := p
    simp only [keys, List.map_cons, List.mem_cons, not_or] at h
    simp only [nbrs, if_neg (Ne.symm h.1)]
    exact ih h.2

theorem nbrs_append (g : Graph) (w v : Int) (l : List Int) :
    nbrs (g ++ [(w, l)]) v = if v ∈ keys g then nbrs g v else if w = v then l else [] := by
  induction g with
  | nil => simp [nbrs, keys]
  | cons p g ih =>
    obtain ⟨u, m⟩ := p
    simp only [List.cons_append, nbrs, keys, List.map_cons, List.mem_cons]
    by_cases h : u = v
    · simp [h]
    · simp only [h, if_false, Ne.symm h, false_or]
      exact ih

theorem keys_addVertex (g : Graph) (v : Int) :
    keys (addVertex g v) = if v ∈ keys g then keys g else keys g ++ [v] := by
  unfold addVertex
  split <;> simp [keys]

theorem mem_keys_addVertex (g : Graph) (v w : Int) :
    w ∈ keys (addVertex g v) ↔ w ∈ keys g ∨ w = v := by
  rw [keys_addVertex]
  split
  · constructor
    · exact .inl
    · rintro (h | rfl) <;> assumption
  · simp

theorem nodup_keys_addVertex {g : Graph} (h : (keys g).Nodup) (v : Int) :
    (keys (addVertex g v)).Nodup := by
  rw [keys_addVertex]
  split
  · exact h
  · rename_i hv
    rw [List.nodup_append]
    refine ⟨h, by simp, ?_⟩
    intro a ha b hb hab
    simp at hb; subst hb; subst hab; exact hv ha

theorem nbrs_addVertex (g : Graph) (v w : Int) : nbrs (addVertex g v) w = nbrs g w := by
  unfold addVertex
  split
  · rfl
  · rw [nbrs_append]
    split
    · rfl
    · rename_i h; rw [nbrs_of_not_mem h]; split <;> rfl

theorem keys_appendNbr (g : Graph) (v w : Int) : keys (appendNbr g v w) = keys g := by
  induction g with
  | nil => rfl
  | cons p g ih =>
    obtain ⟨u, l⟩ := p
    unfold appendNbr
    split
    · rfl
    · simp only [keys, List.map_cons] at *; rw [ih]

theorem nbrs_appendNbr (g : Graph) (v w u : Int) (h : v ∈ keys g) :
    nbrs (appendNbr g v w) u = if u = v then nbrs g u ++ [w] else nbrs g u := by
  induction g with
  | nil => simp [keys] at h
  | cons p g ih =>
    obtain ⟨x, l⟩ := p
    unfold appendNbr
    by_cases hx : x = v
    · subst hx
      rw [if_pos rfl]
      simp only [nbrs]
      by_cases hu : x = u
      · subst hu; simp
      · simp [hu, Ne.symm hu]
    · rw [if_neg hx]
      simp only [nbrs]
      by_cases hu : x = u
      · subst hu; simp [hx]
      · simp only [hu, if_false]
        apply ih
        simp only [keys, List.map_cons, List.mem_cons] at h
        rcases h with h | h
        · exact absurd h.symm hx
        · exact h

/-- the other end of the edge, seen from `v` -/
def otherEnd (v : Int) (e : Dart) : Option Int :=
  if e.1 = e.2 then none
  else if e.1 = v then some e.2
  else if e.2 = v then some e.1
  else none

theorem nbrs_addEdge (rt : Rt) (g : Graph) (e : Dart) (v : Int) :
    nbrs (addEdge rt g e) v = nbrs g v ++ (otherEnd v e).toList := by
  obtain ⟨a, b⟩ := e
  unfold addEdge otherEnd
  by_cases hab : a = b
  · simp [hab]
  · simp only [hab, if_false]
    cases rt.popFirst a b with
    | true =>
      simp only [if_true]
      rw [nbrs_appendNbr _ _ _ _ (by rw [keys_appendNbr]; simp [mem_keys_addVertex]),
        nbrs_appendNbr _ _ _ _ (by simp [mem_keys_addVertex]), nbrs_addVertex, nbrs_addVertex]
      by_cases h1 : a = v
      · subst h1; simp [hab]
      · by_cases h2 : b = v
        · subst h2; simp [h1, Ne.symm h1]
        · simp [h1, h2, Ne.symm h1, Ne.symm h2]
    | false =>
      simp only [Bool.false_eq_true, if_false]
      rw [nbrs_appendNbr _ _ _ _ (by rw [keys_appendNbr]; simp [mem_keys_addVertex]),
        nbrs_appendNbr _ _ _ _ (by simp [mem_keys_addVertex]), nbrs_addVertex, nbrs_addVertex]
      by_cases h1 : a = v
      · subst h1; simp [hab]
      · by_cases h2 : b = v
        · subst h2; simp [h1, Ne.symm h1]
        · simp [h1, h2, Ne.symm h1, Ne.symm h2]

theorem mem_keys_addEdge (rt : Rt) (g : Graph) (e : Dart) (v : Int) :
    v ∈ keys (addEdge rt g e) ↔ v ∈ keys g ∨ (e.1 ≠ e.2 ∧ (v = e.1 ∨ v = e.2)) := by
  obtain ⟨a, b⟩ := e
  unfold addEdge
  by_cases hab : a = b
  · simp [hab]
  · simp only [hab, if_false, keys_appendNbr, mem_keys_addVertex]
    cases rt.popFirst a b <;> simp [hab, or_assoc]; rw [or_comm (a := v = b)]

theorem nodup_keys_addEdge (rt : Rt) {g : Graph} (h : (keys g).Nodup) (e : Dart) :
    (keys (addEdge rt g e)).Nodup := by
  unfold addEdge
  split
  · exact h
  · simp only [keys_appendNbr]
    exact nodup_keys_addVertex (nodup_keys_addVertex h _) _

theorem foldl_addEdge_nbrs (rt : Rt) (ds : List Dart) (g : Graph) (v : Int) :
    nbrs (ds.foldl (addEdge rt) g) v = nbrs g v ++ ds.filterMap (otherEnd v) := by
  induction ds generalizing g with
  | nil => simp
  | cons d ds ih =>
    rw [List.foldl_cons, ih, nbrs_addEdge, List.append_assoc]
    congr 1
    cases h : otherEnd v d <;> simp [h]

theorem foldl_addEdge_keys (rt : Rt) (ds : List Dart) (g : Graph) (v : Int) :
    v ∈ keys (ds.foldl (addEdge rt) g) ↔
      v ∈ keys g ∨ ∃ e ∈ ds, e.1 ≠ e.2 ∧ (v = e.1 ∨ v = e.2) := by
  induction ds generalizing g with
  | nil => simp
  | cons d ds ih =>
    rw [List.foldl_cons, ih, mem_keys_addEdge, or_assoc]
    simp

theorem foldl_addEdge_nodup (rt : Rt) (ds : List Dart) {g : Graph} (h : (keys g).Nodup) :
    (keys (ds.foldl (addEdge rt) g)).Nodup := by
  induction ds generalizing g with
  | nil => exact h
  | cons d ds ih => exact ih (nodup_keys_addEdge rt h d)

/-- with different keys, the entries are exactly the pairs of a key and its neighbour list -/
theorem mem_of_nodup {g : Graph} (h : (keys g).Nodup) {v : Int} {l : List Int} :
    (v, l) ∈ g → nbrs g v = l := by
  induction g with
  | nil => simp
  | cons p g ih =>
    obtain ⟨w, m⟩ := p
    simp only [keys, List.map_cons, List.nodup_cons] at h
    intro hm
    rcases List.mem_cons.1 hm with hm | hm
    · cases hm; simp [nbrs]
    · have : w ≠ v := by
        rintro rfl
        exact h.1 (List.mem_map.2 ⟨_, hm, rfl⟩)
      simp only [nbrs, if_neg this]
      exact ih h.2 hm

theorem mem_nbrs_entry {g : Graph} {v w : Int} (h : w ∈ nbrs g v) : ∃ l, (v, l) ∈ g ∧ w ∈ l := by
  induction g with
  | nil => simp [nbrs] at h
  | cons p g ih =>
    obtain ⟨u, m⟩ := p
    simp only [nbrs] at h
    split at h
    · rename_i hu; subst hu; exact ⟨m, by simp, h⟩
    · obtain ⟨l, h1, h2⟩ := ih h
      exact ⟨l, by simp [h1], h2⟩

theorem mem_edges {g : Graph} (h : (keys g).Nodup) (d : Dart) : d ∈ edges g ↔ HasDart g d := by
  unfold edges HasDart
  rw [List.mem_flatMap]
  constructor
  · rintro ⟨⟨v, l⟩, hm, hd⟩
    obtain ⟨w, hw, rfl⟩ := List.mem_map.1 hd
    simp only
    rw [mem_of_nodup h hm]; exact hw
  · intro hd
    obtain ⟨l, hl, hw⟩ := mem_nbrs_entry hd
    exact ⟨(d.1, l), hl, List.mem_map.2 ⟨d.2, hw, rfl⟩⟩

theorem nodup_eraseDups {α : Type} [BEq α] [LawfulBEq α] (l : List α) : l.eraseDups.Nodup := by
  have key : ∀ n (l : List α), l.length ≤ n → l.eraseDups.Nodup := by
    intro n
    induction n with
    | zero =>
      intro l hl
      have : l = [] := List.length_eq_zero_iff.1 (by omega)
      subst this; simp
    | succ n ih =>
      intro l hl
      cases l with
      | nil => simp
      | cons a l =>
        rw [List.eraseDups_cons, List.nodup_cons]
        constructor
        · rw [List.mem_eraseDups]; simp
        · apply ih
          have := List.length_filter_le (fun b => !b == a) l
          simp at hl; omega
  exact key _ l (Nat.le_refl _)

theorem nodup_edgeSet (g : Graph) : (edgeSet g).Nodup := nodup_eraseDups _

theorem mem_edgeSet (g : Graph) (d : Dart) :
    d ∈ edgeSet g ↔ d ∈ edges g ∨ (d.2, d.1) ∈ edges g := by
  unfold edgeSet
  rw [List.mem_eraseDups, List.mem_flatMap]
  constructor
  · rintro ⟨⟨a, b⟩, h, hd⟩
    simp only [List.mem_cons, List.not_mem_nil, or_false] at hd
    rcases hd with rfl | rfl
    · exact .inl h
    · exact .inr h
  · rintro (h | h)
    · exact ⟨d, h, by simp⟩
    · exact ⟨_, h, by simp⟩

theorem mem_edgeSet_simple {g : Graph} (hs : Simple g) (d : Dart) :
    d ∈ edgeSet g ↔ HasDart g d := by
  rw [mem_edgeSet, mem_edges hs.keys, mem_edges hs.keys]
  constructor
  · rintro (h | h)
    · exact h
    · exact hs.symm _ _ h
  · exact .inl

/-! ### cyclic successor -/

theorem Follows.mem {ns : List Int} {u w : Int} (h : Follows ns u w) : u ∈ ns ∧ w ∈ ns := by
  obtain ⟨i, h1, h2⟩ := h
  exact ⟨List.mem_of_getElem? h1, List.mem_of_getElem? h2⟩

theorem nodup_idx {α : Type} {l : List α} (h : l.Nodup) {i j : Nat} {a : α}
    (hi : l[i]? = some a) (hj : l[j]? = some a) : i = j := by
  obtain ⟨hi, e1⟩ := List.getElem?_eq_some_iff.1 hi
  obtain ⟨hj, e2⟩ := List.getElem?_eq_some_iff.1 hj
  exact (List.Nodup.getElem_inj_iff h).1 (e1.trans e2.symm)

theorem Follows.unique {ns : List Int} (hn : ns.Nodup) {u w w' : Int} (h : Follows ns u w)
    (h' : Follows ns u w') : w = w' := by
  obtain ⟨i, h1, h2⟩ := h
  obtain ⟨j, h3, h4⟩ := h'
  have := nodup_idx hn h1 h3
  subst this
  rw [h2] at h4; cases h4; rfl

theorem Follows.injective {ns : List Int} (hn : ns.Nodup) {u u' w : Int} (h : Follows ns u w)
    (h' : Follows ns u' w) : u = u' := by
  obtain ⟨i, h1, h2⟩ := h
  obtain ⟨j, h3, h4⟩ := h'
  have := nodup_idx hn h2 h4
  have hi := (List.getElem?_eq_some_iff.1 h1).1
  have hj := (List.getElem?_eq_some_iff.1 h3).1
  have : i = j := by
    rcases Nat.lt_or_ge (i + 1) ns.length with a | a <;>
      rcases Nat.lt_or_ge (j + 1) ns.length with b | b
    · rw [Nat.mod_eq_of_lt a, Nat.mod_eq_of_lt b] at this; omega
    · have e : j + 1 = ns.length := by omega
      rw [Nat.mod_eq_of_lt a, e, Nat.mod_self] at this; omega
    · have e : i + 1 = ns.length := by omega
      rw [Nat.mod_eq_of_lt b, e, Nat.mod_self] at this; omega
    · omega
  subst this
  rw [h1] at h3; cases h3; rfl

theorem nextNode_ok {ns : List Int} {u w : Int} (h : nextNode ns u = .ok w) : Follows ns u w := by
  unfold nextNode at h
  split at h
  · cases h
  · rename_i i hi
    rw [List.idxOf?_eq_some_iff] at hi
    obtain ⟨hlt, he, _⟩ := hi
    rw [pyGet_nat_ok] at h
    exact ⟨i, by rw [List.getElem?_eq_getElem hlt, he], h⟩

theorem nextNode_total {ns : List Int} {u : Int} (h : u ∈ ns) : ∃ w, nextNode ns u = .ok w := by
  unfold nextNode
  cases hi : ns.idxOf? u with
  | none => rw [List.idxOf?_eq_none_iff] at hi; exact absurd h hi
  | some i =>
    have hpos : 0 < ns.length := List.length_pos_of_mem h
    have hlt : (i + 1) % ns.length < ns.length := Nat.mod_lt _ hpos
    exact ⟨ns[(i + 1) % ns.length], pyGet_nat_ok.2 (List.getElem?_eq_getElem hlt)⟩

theorem nextNode_error {ns : List Int} {u : Int} {e : PyErr} (h : nextNode ns u = .error e) :
    u ∉ ns ∧ e = .value := by
  constructor
  · intro hm
    obtain ⟨w, hw⟩ := nextNode_total hm
    rw [hw] at h; cases h
  · unfold nextNode at h
    split at h
    · cases h; rfl
    · rename_i i hi
      rw [List.idxOf?_eq_some_iff] at hi
      obtain ⟨hlt, _, _⟩ := hi
      rw [pyGet_nat_error] at h
      have : (i + 1) % ns.length < ns.length := Nat.mod_lt _ (by omega)
      omega

theorem pickDart_mem {rt : Rt} {es : List Dart} {e : Dart} (h : pickDart rt es = some e) :
    e ∈ es := List.mem_of_getElem? h

theorem pickDart_total {rt : Rt} {es : List Dart} (h : es ≠ []) : ∃ e, pickDart rt es = some e := by
  unfold pickDart
  have hpos : 0 < es.length := List.length_pos_iff.2 h
  exact ⟨_, List.getElem?_eq_getElem (Nat.mod_lt _ hpos)⟩

/-! ### tracing -/

theorem TurnsTo.inj {emb : Graph} (hn : ∀ v, (nbrs emb v).Nodup) {a b c : Dart}
    (h : TurnsTo emb a c) (h' : TurnsTo emb b c) : a = b := by
  obtain ⟨h1, h2⟩ := h
  obtain ⟨h3, h4⟩ := h'
  have e : a.2 = b.2 := by rw [← h1, h3]
  rw [e] at h2
  exact Prod.ext (h2.injective (hn _) h4) e

theorem TurnsTo.unique {emb : Graph} (hn : ∀ v, (nbrs emb v).Nodup) {a b c : Dart}
    (h : TurnsTo emb a b) (h' : TurnsTo emb a c) : b = c :=
  Prod.ext (h.1.trans h'.1.symm) (h.2.unique (hn _) h'.2)

/-- closed walk, as a chain that closes -/
def ClosedChain (emb : Graph) (f : List Dart) : Prop :=
  List.IsChain (TurnsTo emb) f ∧
    ∃ a b, f.getLast? = some a ∧ f.head? = some b ∧ TurnsTo emb a b

theorem ClosedChain.faceCycle {emb : Graph} {f : List Dart} (h : ClosedChain emb f) :
    FaceCycle emb f := by
  obtain ⟨hc, a, b, ha, hb, hab⟩ := h
  refine ⟨by rintro rfl; simp at ha, ?_⟩
  intro i x y hx hy
  have hi := (List.getElem?_eq_some_iff.1 hx).1
  rcases Nat.lt_or_ge (i + 1) f.length with h1 | h1
  · rw [Nat.mod_eq_of_lt h1] at hy
    rw [List.isChain_iff_getElem] at hc
    have := hc i h1
    rw [List.getElem?_eq_getElem hi] at hx
    rw [List.getElem?_eq_getElem h1] at hy
    cases hx; cases hy; exact this
  · have e : i + 1 = f.length := by omega
    rw [e, Nat.mod_self] at hy
    rw [List.getLast?_eq_getElem?] at ha
    rw [List.head?_eq_getElem?] at hb
    have e' : f.length - 1 = i := by omega
    rw [e', hx] at ha
    rw [hy] at hb
    cases ha; cases hb; exact hab

/-- in a chain every element but the first has a predecessor -/
theorem chain_pred {emb : Graph} {f : List Dart} (hc : List.IsChain (TurnsTo emb) f) {x : Dart}
    (hx : x ∈ f) : f.head? = some x ∨ ∃ i y, f[i]? = some y ∧ f[i + 1]? = some x ∧ TurnsTo emb y x := by
  obtain ⟨j, hj⟩ := List.mem_iff_getElem?.1 hx
  cases j with
  | zero => left; rw [List.head?_eq_getElem?]; exact hj
  | succ i =>
    right
    have h1 := (List.getElem?_eq_some_iff.1 hj).1
    rw [List.isChain_iff_getElem] at hc
    have := hc i h1
    refine ⟨i, f[i], List.getElem?_eq_getElem (by omega), hj, ?_⟩
    rw [List.getElem?_eq_getElem h1] at hj
    cases hj; exact this

theorem closed_pred {emb : Graph} {f : List Dart} (h : ClosedChain emb f) {x : Dart}
    (hx : x ∈ f) : ∃ y ∈ f, TurnsTo emb y x := by
  obtain ⟨hc, a, b, ha, hb, hab⟩ := h
  rcases chain_pred hc hx with h | ⟨i, y, hy, _, ht⟩
  · rw [hb] at h; cases h
    exact ⟨a, List.mem_of_getLast? ha, hab⟩
  · exact ⟨y, List.mem_of_getElem? hy, ht⟩

/-- the situation in the tracing loop -/
structure TraceInv (g emb : Graph) (es path : List Dart) (faces : List (List Dart)) : Prop where
  perm : (faces.flatten ++ path ++ es).Perm (edgeSet g)
  closed : ∀ f ∈ faces, ClosedChain emb f
  chain : List.IsChain (TurnsTo emb) path

theorem turn_fresh {g emb : Graph} (hn : ∀ v, (nbrs emb v).Nodup)
    {es path : List Dart} {faces : List (List Dart)} (inv : TraceInv g emb es path faces)
    {a t : Dart} (ha : path.getLast? = some a) (ht : TurnsTo emb a t) (htm : t ∈ edgeSet g)
    (hh : path.head? ≠ some t) : t ∈ es ∧ t ∉ path := by
  have hnd : (faces.flatten ++ path ++ es).Nodup := inv.perm.nodup_iff.2 (nodup_edgeSet g)
  have hpn : path.Nodup := ((List.nodup_append.1 (List.nodup_append.1 hnd).1).2).1
  have hnp : t ∉ path := by
    intro hm
    rcases chain_pred inv.chain hm with h | ⟨i, y, hy, hy', hty⟩
    · exact hh h
    · have e := ht.inj hn hty
      subst e
      rw [List.getLast?_eq_getElem?] at ha
      have e := nodup_idx hpn ha hy
      have := (List.getElem?_eq_some_iff.1 hy').1
      omega
  have hnf : t ∉ faces.flatten := by
    intro hm
    obtain ⟨f, hf, htf⟩ := List.mem_flatten.1 hm
    obtain ⟨y, hy, hty⟩ := closed_pred (inv.closed f hf) htf
    have e := ht.inj hn hty
    subst e
    have h1 : a ∈ faces.flatten := List.mem_flatten.2 ⟨f, hf, hy⟩
    have h2 : a ∈ path := List.mem_of_getLast? ha
    exact (List.nodup_append.1 (List.nodup_append.1 hnd).1).2.2 a h1 a h2 rfl
  refine ⟨?_, hnp⟩
  have := inv.perm.mem_iff.2 htm
  rw [List.mem_append, List.mem_append] at this
  rcases this with (h | h) | h
  · exact absurd h hnf
  · exact absurd h hnp
  · exact h

theorem chain_snoc {emb : Graph} {f : List Dart} {a t : Dart}
    (hc : List.IsChain (TurnsTo emb) f) (ha : f.getLast? = some a) (ht : TurnsTo emb a t) :
    List.IsChain (TurnsTo emb) (f ++ [t]) := by
  rw [List.isChain_append]
  refine ⟨hc, by simp, ?_⟩
  intro x hx y hy
  rw [Option.mem_def] at hx hy
  rw [ha] at hx; simp at hx hy; subst hx hy; exact ht

theorem traceLoop_ok {g emb : Graph} (rt : Rt) (hs : Simple g) (he : Embeds emb g) (k : Nat)
    (es path : List Dart) (faces : List (List Dart)) (hk : es.length < k)
    (inv : TraceInv g emb es path faces) (hp : path ≠ [] ∨ es = []) :
    ∃ fs, traceLoop rt emb k es path faces = .ok fs ∧ fs.flatten.Perm (edgeSet g) ∧
      ∀ f ∈ fs, ClosedChain emb f := by
  have hn : ∀ v, (nbrs emb v).Nodup := fun v => (he v).nodup_iff.2 (hs.nodup v)
  -- a dart of the graph can always be continued within the graph
  have hcont : ∀ a ∈ edgeSet g, ∃ w, nextNode (nbrs emb a.2) a.1 = .ok w ∧
      TurnsTo emb a (a.2, w) ∧ (a.2, w) ∈ edgeSet g := by
    intro a ha
    rw [mem_edgeSet_simple hs] at ha
    have h1 : a.1 ∈ nbrs emb a.2 := (he _).mem_iff.2 (hs.symm _ _ ha)
    obtain ⟨w, hw⟩ := nextNode_total h1
    have hf := nextNode_ok hw
    refine ⟨w, hw, ⟨rfl, hf⟩, ?_⟩
    rw [mem_edgeSet_simple hs]
    exact (he _).mem_iff.1 hf.mem.2
  induction k generalizing es path faces with
  | zero => omega
  | succ k ih =>
    unfold traceLoop
    by_cases hes : es = []
    · subst hes
      simp only [List.isEmpty_nil, if_true]
      have hperm := inv.perm
      rw [List.append_nil] at hperm
      cases hpath : path with
      | nil =>
        subst hpath
        simp only [List.isEmpty_nil, if_true]
        exact ⟨faces, rfl, by simpa using hperm, inv.closed⟩
      | cons b tl =>
        rw [← hpath]
        have hne : path ≠ [] := by rw [hpath]; simp
        have hie : path.isEmpty = false := by rw [hpath]; rfl
        simp only [hie, Bool.false_eq_true, if_false]
        refine ⟨_, rfl, by simpa using hperm, ?_⟩
        intro f hf
        rcases List.mem_append.1 hf with hf | hf
        · exact inv.closed f hf
        · rw [List.mem_singleton] at hf; rw [hf]
          refine ⟨inv.chain, ?_⟩
          obtain ⟨a, ha⟩ : ∃ a, path.getLast? = some a := by
            cases h : path.getLast? with
            | none => simp at h; exact absurd h hne
            | some a => exact ⟨a, rfl⟩
          have ham : a ∈ edgeSet g := hperm.mem_iff.1
            (List.mem_append_right _ (List.mem_of_getLast? ha))
          obtain ⟨w, _, ht, htm⟩ := hcont a ham
          have hhead : path.head? = some (a.2, w) := by
            apply Classical.byContradiction
            intro hh
            exact absurd (turn_fresh hn inv ha ht htm hh).1 (by simp)
          exact ⟨a, _, ha, hhead, ht⟩
    · have hie : es.isEmpty = false := by
        cases es with
        | nil => exact absurd rfl hes
        | cons => rfl
      simp only [hie, Bool.false_eq_true, if_false]
      have hne : path ≠ [] := hp.resolve_right hes
      cases ha : path.getLast? with
      | none => simp at ha; exact absurd ha hne
      | some a =>
        obtain ⟨u, v⟩ := a
        have ham : (u, v) ∈ edgeSet g := inv.perm.mem_iff.1
          (List.mem_append_left _ (List.mem_append_right _ (List.mem_of_getLast? ha)))
        obtain ⟨w, hw, ht, htm⟩ := hcont _ ham
        simp only at hw ⊢
        rw [hw, ok_bind]
        by_cases hh : path.head? = some (v, w)
        · rw [if_pos hh]
          obtain ⟨e, hpe⟩ := pickDart_total (rt := rt) hes
          have hem := pickDart_mem hpe
          rw [hpe]
          simp only
          apply ih
          · rw [List.length_erase_of_mem hem]
            have := List.length_pos_of_mem hem
            omega
          · refine ⟨?_, ?_, by simp⟩
            · rw [List.flatten_append]
              simp only [List.flatten_cons, List.flatten_nil, List.append_nil]
              refine List.Perm.trans ?_ inv.perm
              rw [List.append_assoc _ [e]]
              exact List.Perm.append_left _ (List.perm_cons_erase hem).symm
            · intro f hf
              rcases List.mem_append.1 hf with hf | hf
              · exact inv.closed f hf
              · simp at hf; subst hf
                exact ⟨inv.chain, _, _, ha, hh, ht⟩
          · left; simp
        · rw [if_neg hh]
          obtain ⟨h1, h2⟩ := turn_fresh hn inv ha ht htm hh
          simp only at h2
          rw [if_neg h2]
          apply ih
          · rw [List.length_erase_of_mem h1]
            have := List.length_pos_of_mem h1
            omega
          · refine ⟨?_, inv.closed, chain_snoc inv.chain ha ht⟩
            refine List.Perm.trans ?_ inv.perm
            rw [← List.append_assoc, List.append_assoc _ [(v, w)]]
            exact List.Perm.append_left _ (List.perm_cons_erase h1).symm
          · left; simp

theorem traceFaces_ok {g emb : Graph} (rt : Rt) (hs : Simple g) (he : Embeds emb g) :
    ∃ fs, traceFaces rt g emb = .ok fs ∧ fs.flatten.Perm (edgeSet g) ∧
      ∀ f ∈ fs, ClosedChain emb f := by
  unfold traceFaces
  simp only
  have hfuel : ∀ n : Nat, n < (n + 1) * (n + (edges emb).length + 2) := by
    intro n
    have : n + 1 ≤ (n + 1) * (n + (edges emb).length + 2) := Nat.le_mul_of_pos_right _ (by omega)
    omega
  cases hp : pickDart rt g.edgeSet with
  | none =>
    have h0 : g.edgeSet = [] := by
      apply Classical.byContradiction
      intro h
      obtain ⟨e, he⟩ := pickDart_total (rt := rt) h
      rw [he] at hp; cases hp
    refine traceLoop_ok rt hs he _ _ _ _ (hfuel _) ⟨by simp, by simp, by simp⟩ (.inr h0)
  | some e =>
    have hem := pickDart_mem hp
    refine traceLoop_ok rt hs he _ _ _ _ ?_ ⟨?_, by simp, by simp⟩ (.inl (by simp))
    · rw [List.length_erase_of_mem hem]
      have := hfuel g.edgeSet.length
      omega
    · simp only [List.flatten_nil, List.nil_append]
      exact (List.perm_cons_erase hem).symm

/-! ### termination on arbitrary graphs -/

theorem nodup_length_le {α : Type} [DecidableEq α] {l m : List α} (hn : l.Nodup)
    (hs : ∀ a ∈ l, a ∈ m) : l.length ≤ m.length := by
  induction l generalizing m with
  | nil => simp
  | cons a l ih =>
    rw [List.nodup_cons] at hn
    have ham : a ∈ m := hs a (by simp)
    have := ih (m := m.erase a) hn.2 (by
      intro b hb
      have hne : b ≠ a := fun h => hn.1 (h ▸ hb)
      exact (List.mem_erase_of_ne hne).2 (hs b (by simp [hb])))
    rw [List.length_erase_of_mem ham] at this
    have := List.length_pos_of_mem ham
    simp; omega

theorem traceLoop_fuel {emb : Graph} (rt : Rt) (D : List Dart)
    (hD : ∀ v w, w ∈ nbrs emb v → (v, w) ∈ D) (k : Nat) (es path : List Dart)
    (faces : List (List Dart)) (hpn : path.Nodup) (hpD : ∀ d ∈ path, d ∈ D)
    (hesD : ∀ d ∈ es, d ∈ D)
    (hk : es.length * (D.length + 1) + (D.length - path.length) < k) :
    traceLoop rt emb k es path faces ≠ .error .fuel := by
  induction k generalizing es path faces with
  | zero => omega
  | succ k ih =>
    unfold traceLoop
    split
    · simp
    · split
      · simp
      · rename_i u v ha
        cases hnx : nextNode (nbrs emb v) u with
        | error e =>
          rw [error_bind]
          have := (nextNode_error hnx).2
          subst this; simp
        | ok w =>
          rw [ok_bind]
          simp only
          have hw : (v, w) ∈ D := hD v w (nextNode_ok hnx).mem.2
          split
          · split
            · simp
            · rename_i e he
              have hem := pickDart_mem he
              apply ih
              · simp
              · intro d hd; simp at hd; subst hd; exact hesD _ hem
              · intro d hd; exact hesD d (List.mem_of_mem_erase hd)
              · rw [List.length_erase_of_mem hem]
                have hpos := List.length_pos_of_mem hem
                obtain ⟨m, hm⟩ : ∃ m, es.length = m + 1 := ⟨es.length - 1, by omega⟩
                rw [hm] at hk ⊢
                rw [Nat.succ_mul] at hk
                simp only [Nat.add_sub_cancel, List.length_cons, List.length_nil]
                omega
          · split
            · simp
            · rename_i hnm
              have hnd : (path ++ [(v, w)]).Nodup := by
                rw [List.nodup_append]
                refine ⟨hpn, by simp, ?_⟩
                intro x hx y hy hxy
                simp at hy; subst hy; subst hxy; exact hnm hx
              have hsub : ∀ d ∈ path ++ [(v, w)], d ∈ D := by
                intro d hd
                rcases List.mem_append.1 hd with hd | hd
                · exact hpD d hd
                · simp at hd; subst hd; exact hw
              have hlen := nodup_length_le hnd hsub
              simp only [List.length_append, List.length_cons, List.length_nil] at hlen
              apply ih
              · exact hnd
              · exact hsub
              · intro d hd; exact hesD d (List.mem_of_mem_erase hd)
              · have h1 : (es.erase (v, w)).length ≤ es.length := List.length_erase_le
                have h2 := Nat.mul_le_mul_right (D.length + 1) h1
                simp only [List.length_append, List.length_cons, List.length_nil]
                omega

end Polyskel
