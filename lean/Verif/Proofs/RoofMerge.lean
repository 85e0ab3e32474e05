import Verif.Proofs.RoofContract
/-
What the main loop has made of a convex polygon, with the nodes at the same place merged, as the tree
of a roof.  Used for C62.
-/
namespace Polyskel
open Scalar Real Geo Graph
set_option linter.unusedSectionVars false

theorem addSinks_nodup {old new : List (V2 ℝ)} (h : old.Nodup) : (addSinks old new).Nodup := by
  unfold addSinks
  induction new generalizing old with
  | nil => exact h
  | cons s new ih =>
    rw [List.foldl_cons]
    apply ih
    split
    · exact h
    · rename_i hm
      rw [exactEq_real.mem] at hm
      rw [List.nodup_append]
      refine ⟨h, by simp, ?_⟩
      intro x hx y hy
      rw [List.mem_singleton] at hy
      subst hy
      rintro rfl
      exact hm hx

/-- The sinks of a merged node are different, if those of the first node at its place are. -/
theorem mergeSame_nodup {sk : List (Subtree ℝ)} : ∀ kept : List (Subtree ℝ), (∀ k ∈ kept, k.sinks.Nodup) →
    (∀ A s B, sk = A ++ s :: B → (∀ a ∈ A, a.source ≠ s.source) → (∀ k ∈ kept, k.source ≠ s.source) →
      s.sinks.Nodup) → ∀ k ∈ mergeSame kept sk, k.sinks.Nodup := by
  induction sk with
  | nil => intro kept h _; exact h
  | cons a sk ih =>
    intro kept h h1
    unfold mergeSame
    cases hf : kept.findIdx? (fun k => V2.teq k.source a.source) with
    | none =>
      have hnone := (findIdx_source exactEq_real).1.1 hf
      refine ih _ ?_ ?_
      · intro k hk
        rcases List.mem_append.1 hk with hk | hk
        · exact h k hk
        · rw [List.mem_singleton] at hk
          subst hk
          exact h1 [] k sk rfl (by simp) hnone
      · intro A s B e hA hk
        refine h1 (a :: A) s B (by rw [e]; rfl) ?_ (fun k hk' => hk k (by simp [hk']))
        intro x hx
        rcases List.mem_cons.1 hx with rfl | hx
        · exact hk x (by simp)
        · exact hA x hx
    | some j =>
      obtain ⟨b, hb, hbs⟩ := (findIdx_source exactEq_real).2 j hf
      have hmap : (kept.modify j (fun k => { k with sinks := addSinks k.sinks a.sinks })).map
          (·.source) = kept.map (·.source) := modify_map_of_eq (fun _ => rfl)
      refine ih _ ?_ ?_
      · intro k hk
        obtain ⟨i, hi⟩ := List.mem_iff_getElem?.1 hk
        rw [List.getElem?_modify] at hi
        cases hki : kept[i]? with
        | none => rw [hki] at hi; simp at hi
        | some k0 =>
          rw [hki] at hi
          have h0 := h k0 (List.mem_of_getElem? hki)
          by_cases hij : j = i
          · simp only [hij, if_true, Option.map_eq_map, Option.map_some, Option.some.injEq] at hi
            subst hi
            exact addSinks_nodup h0
          · simp only [hij, if_false, Option.map_eq_map, Option.map_some, Option.some.injEq, id] at hi
            subst hi
            exact h0
      · intro A s B e hA hk
        have hk' : ∀ k ∈ kept, k.source ≠ s.source := by
          intro k hk' he
          have : s.source ∈ kept.map (·.source) := List.mem_map.2 ⟨k, hk', he⟩
          rw [← hmap] at this
          obtain ⟨x, hx, hxs⟩ := List.mem_map.1 this
          exact hk x hx hxs
        refine h1 (a :: A) s B (by rw [e]; rfl) ?_ hk'
        intro x hx
        rcases List.mem_cons.1 hx with rfl | hx
        · rw [← hbs]; exact hk' b (List.mem_of_getElem? hb)
        · exact hA x hx

theorem perm_map_inv {α β : Type} {f : α → β} {s : List β} {l : List α} (h : s.Perm (l.map f)) :
    ∃ l' : List α, l'.Perm l ∧ s = l'.map f := by
  have h2 : List.Forall₂ (fun y x => y = f x) (l.map f) l := by
    rw [List.forall₂_map_left_iff, List.forall₂_same]
    intros; rfl
  obtain ⟨l', h3, h4⟩ := List.perm_comp_forall₂ h h2
  refine ⟨l', h4, ?_⟩
  clear h h2 h4
  induction h3 with
  | nil => rfl
  | cons h _ ih => rw [List.map_cons, h, ih]

section
variable {c : List (Edge2 ℝ)} {m : Nat} {pos : Nat → V2 ℝ} {hh : Nat → ℝ} {L R : Nat → Edge2 ℝ}
  {ch ch' : Nat → List Nat}

theorem RoofTree.reorder (h : RoofTree c m pos hh L R ch) (hp : ∀ j < m, (ch' j).Perm (ch j)) :
    RoofTree c m pos hh L R ch' := by
  refine ⟨h.three, h.corner, ?_, ?_, ?_, ?_⟩
  · intro k hk
    obtain ⟨j, hj, hk⟩ := h.leaf k hk
    exact ⟨j, hj, (hp j hj).mem_iff.2 hk⟩
  · intro j hj
    obtain ⟨l, e, f, θ, h1, h2, h3⟩ := h.node j hj
    refine ⟨l, e, f, θ, (hp j hj).trans h1, h2, ?_⟩
    rcases h3 with ⟨a1, a2, a3, a4, i, a5, a6⟩ | ⟨a1, a2, a3, a4⟩
    · exact .inl ⟨a1, a2, a3, a4, i, a5, (hp i a5).mem_iff.2 a6⟩
    · exact .inr ⟨a1, a2, a3, fun i hi hm => a4 i hi ((hp i hi).mem_iff.1 hm)⟩
  · exact (List.Perm.flatMap_left _ (fun j hj => hp j (List.mem_range.1 hj))).nodup_iff.2 h.nodup
  · obtain ⟨rk, hr⟩ := h.rank
    exact ⟨rk, fun j hj k hk => hr j hj k ((hp j hj).mem_iff.1 hk)⟩

end

section
variable {c : List (Edge2 ℝ)} {st : St ℝ} {out : List (Subtree ℝ)} {ch : Nat → List Nat}

theorem corner_not_node (hc : ConvexPolygon c) (ha : ∀ a ∈ out, RoofArc c a) :
    ∀ k j, k < c.length → j < out.length → posOf c out k ≠ posOf c out (c.length + j) := by
  intro i j hi hj hij
  have hg := List.getElem?_eq_getElem hj
  rw [posOf_corner hi, posOf_node hg] at hij
  have := (ha _ (List.getElem_mem hj)).node
  rw [← hij] at this
  exact hc.not_node hi this

theorem heights_least (hc : ConvexPolygon c) (ha : ∀ a ∈ out, RoofArc c a) :
    ∀ k, k < c.length + out.length → ∀ g ∈ c, hhOf c out k ≤ hgt g (posOf c out k) := by
  intro k hk g hg
  by_cases hn : k < c.length
  · rw [posOf_corner hn, hhOf_corner hn]
    exact (hc.corner_nonneg hg (List.getElem_mem hn)).1
  · obtain ⟨j, rfl⟩ : ∃ j, k = c.length + j := ⟨k - c.length, by omega⟩
    have hj : j < out.length := by omega
    rw [posOf_node (List.getElem?_eq_getElem hj), hhOf_node (List.getElem?_eq_getElem hj)]
    exact (ha _ (List.getElem_mem hj)).node.least g hg

set_option maxHeartbeats 400000 in
/-- what the main loop has made of a convex polygon, with the nodes at the same place merged, is the
tree of a roof -/
theorem Grown.roof (h : Grown c st out ch []) (hl : out.length + 2 = c.length) (h3 : 3 ≤ c.length)
    (hc : ConvexPolygon c) (ha : ∀ a ∈ out, RoofArc c a) :
    ∃ sk L R ch', sk = (mergeSame [] out).map noLoop ∧ 1 ≤ sk.length ∧ sk.length + 2 ≤ c.length ∧
      (∀ a ∈ sk, RoofArc c a) ∧
      RoofTree c sk.length (posOf c sk) (hhOf c sk) L R ch' ∧
      (∀ i j, i < c.length + sk.length → j < c.length + sk.length → posOf c sk i = posOf c sk j → i = j) ∧
      ∀ j arc, sk[j]? = some arc → arc.sinks = (ch' j).map (posOf c sk) := by
  have ht := h.tree hl h3 (c[0]'(by omega))
  have hcn := corner_not_node hc ha
  have hlow := heights_least hc ha
  obtain ⟨m1, m2, m3⟩ := C30_mergeSame exactEq_real out
  -- the sinks of the first node at a place
  have hfirst : ∀ A s B, out = A ++ s :: B → (∀ a ∈ A, a.source ≠ s.source) → s.sinks.Nodup := by
    intro A s B e hA
    have hj : out[A.length]? = some s := by rw [e]; simp
    have hjl := (List.getElem?_eq_some_iff.1 hj).1
    rw [h.sinks hl h3 hj]
    refine List.Nodup.map_on ?_ (ht.ch_nodup hjl)
    have key : ∀ x ∈ ch A.length, ∀ y ∈ ch A.length, x < y → posOf c out x ≠ posOf c out y := by
      intro x hx y hy hxy he
      have lx := ht.child_lt hjl hx
      have ly := ht.child_lt hjl hy
      by_cases yc : y < c.length
      · have hij := he
        rw [posOf_corner (show x < c.length by omega), posOf_corner yc] at hij
        have : (c.map (·.p1))[x]'(by simp; omega) = (c.map (·.p1))[y]'(by simpa using yc) := by
          simpa using hij
        have := (hc.distinct.getElem_inj_iff).1 this
        omega
      · obtain ⟨j, rfl⟩ : ∃ j, y = c.length + j := ⟨y - c.length, by omega⟩
        by_cases xc : x < c.length
        · exact hcn x j xc (by omega) he
        · obtain ⟨i, rfl⟩ : ∃ i, x = c.length + i := ⟨x - c.length, by omega⟩
          obtain ⟨j0, b1, b2, b3⟩ := ht.merged hc hlow hcn (show i < j by omega) (by omega) he
          obtain rfl := ht.parent_unique hjl b1 hx b2
          have hi : i < A.length := by omega
          have hgi : out[i]? = some A[i] := by
            rw [e, List.getElem?_append_left hi]
            exact List.getElem?_eq_getElem hi
          rw [posOf_node hgi, posOf_node hj] at b3
          exact hA _ (List.getElem_mem hi) b3
    intro x hx y hy hxy
    rcases Nat.lt_trichotomy x y with hlt | hlt | hlt
    · exact absurd hxy (key x hx y hy hlt)
    · exact hlt
    · exact absurd hxy.symm (key y hy x hx hlt)
  have hnd := mergeSame_nodup [] (by simp) (fun A s B e hA _ => hfirst A s B e hA)
  set kept := mergeSame [] out with hkept
  set sk := kept.map noLoop with hsk
  have hsrc : sk.map (·.source) = kept.map (·.source) := by
    rw [hsk, List.map_map]
    rfl
  have hps : (sk.map (·.source)).Nodup := by rw [hsrc]; exact m1
  have hin : ∀ j < out.length, posOf c out (c.length + j) ∈ sk.map (·.source) := by
    intro j hj
    rw [posOf_node (List.getElem?_eq_getElem hj), hsrc]
    obtain ⟨k, h1, h2⟩ := m2 _ (List.getElem_mem hj)
    exact List.mem_map.2 ⟨k, h1, h2⟩
  have hfrom : ∀ k ∈ kept, ∃ (j : Nat) (arc : Subtree ℝ), out[j]? = some arc ∧ k.source = arc.source ∧
      k.height = arc.height := by
    intro k hk
    obtain ⟨⟨A, s, B, e, -, h1, h2, -⟩, -⟩ := m3 k hk
    exact ⟨A.length, s, by rw [e]; simp, h1, h2⟩
  have hex : ∀ p ∈ sk.map (·.source), ∃ j < out.length, posOf c out (c.length + j) = p := by
    intro p hp
    rw [hsrc] at hp
    obtain ⟨k, hk, rfl⟩ := List.mem_map.1 hp
    obtain ⟨j, arc, h1, h2, -⟩ := hfrom k hk
    exact ⟨j, (List.getElem?_eq_some_iff.1 h1).1, by rw [posOf_node h1, h2]⟩
  have hnode : ∀ a ∈ sk, RoofNode c a.source a.height := by
    intro a hm
    obtain ⟨k, hk, rfl⟩ := List.mem_map.1 hm
    obtain ⟨j, arc, h1, h2, h4⟩ := hfrom k hk
    show RoofNode c k.source k.height
    rw [h2, h4]
    exact (ha arc (List.mem_of_getElem? h1)).node
  have harc : ∀ a ∈ sk, RoofArc c a := by
    intro a hm
    refine ⟨hnode a hm, ?_⟩
    obtain ⟨k, hk, rfl⟩ := List.mem_map.1 hm
    intro p hp
    obtain ⟨s, hs, e1, e2⟩ := ((m3 k hk).2 p).1 (List.mem_of_mem_erase hp)
    have := (ha s hs).ridge p e2
    rw [e1] at this
    exact this
  obtain ⟨ρ, ch', ρ1, ρ2, ρ3, hT, hinj, hmem⟩ := ht.contract hc hlow hcn hps hin hex
  rw [List.length_map] at hT hinj ρ3
  have hone : out ≠ [] := by rintro rfl; simp at hl; omega
  -- places and heights
  have hget : ∀ k, c.length ≤ k → k < c.length + sk.length → ∃ (i : Nat) (a : Subtree ℝ),
      k = c.length + i ∧ sk[i]? = some a ∧ ∃ (j : Nat) (arc : Subtree ℝ), out[j]? = some arc ∧
        ρ k = c.length + j ∧ arc.source = a.source := by
    intro k h1 h2
    obtain ⟨i, rfl⟩ : ∃ i, k = c.length + i := ⟨k - c.length, by omega⟩
    have hi : i < sk.length := by omega
    obtain ⟨j, b1, b2, b3⟩ := ρ2 i sk[i].source (by simp [List.getElem?_eq_getElem hi])
    rw [posOf_node (List.getElem?_eq_getElem b1)] at b3
    exact ⟨i, sk[i], rfl, List.getElem?_eq_getElem hi, j, out[j], List.getElem?_eq_getElem b1, b2, b3⟩
  have hpos : (fun k => posOf c out (ρ k)) = posOf c sk := by
    funext k
    by_cases h1 : k < c.length
    · rw [ρ1 k h1, posOf_corner h1, posOf_corner h1]
    · by_cases h2 : k < c.length + sk.length
      · obtain ⟨i, a, rfl, b1, j, arc, b2, b3, b4⟩ := hget k (by omega) h2
        rw [b3, posOf_node b2, posOf_node b1, b4]
      · rw [ρ3 k (by omega)]
        have e1 : sk[k - c.length]? = none := List.getElem?_eq_none (by omega)
        simp [posOf, h1, e1]
  have hhgt : (fun k => hhOf c out (ρ k)) = hhOf c sk := by
    funext k
    by_cases h1 : k < c.length
    · rw [ρ1 k h1, hhOf_corner h1, hhOf_corner h1]
    · by_cases h2 : k < c.length + sk.length
      · obtain ⟨i, a, rfl, b1, j, arc, b2, b3, b4⟩ := hget k (by omega) h2
        rw [b3, hhOf_node b2, hhOf_node b1]
        have n1 := (ha arc (List.mem_of_getElem? b2)).node
        rw [b4] at n1
        exact n1.height_unique (hnode a (List.mem_of_getElem? b1))
      · rw [ρ3 k (by omega)]
        have e1 : sk[k - c.length]? = none := List.getElem?_eq_none (by omega)
        simp [hhOf, h1, e1]
  rw [hpos, hhgt] at hT
  rw [hpos] at hmem
  have hinj' : ∀ i j, i < c.length + sk.length → j < c.length + sk.length → posOf c sk i = posOf c sk j →
      i = j := by
    intro i j hi hj hij
    rw [← hpos] at hij
    exact hinj i j hi hj hij
  -- the sinks
  have hsinks : ∀ j : Nat, ∃ l : List Nat, ∀ arc, sk[j]? = some arc →
      l.Perm (ch' j) ∧ arc.sinks = l.map (posOf c sk) := by
    intro j
    by_cases hj : j < sk.length
    swap
    · exact ⟨[], fun arc h => by rw [List.getElem?_eq_none (by omega)] at h; cases h⟩
    have hjk : j < kept.length := by simpa [hsk] using hj
    have hskj : sk[j] = noLoop kept[j] := by simp [hsk]
    have hperm : (sk[j].sinks).Perm ((ch' j).map (posOf c sk)) := by
      rw [List.perm_ext_iff_of_nodup]
      · intro q
        rw [hmem j sk[j].source (by simp [List.getElem?_eq_getElem hj]) q, hskj]
        show q ∈ kept[j].sinks.erase kept[j].source ↔ _
        rw [(hnd _ (List.getElem_mem hjk)).mem_erase_iff, (m3 _ (List.getElem_mem hjk)).2 q]
        refine and_congr_right fun _ => ⟨?_, ?_⟩
        · rintro ⟨s, hs, e1, e2⟩
          obtain ⟨i, hi⟩ := List.mem_iff_getElem?.1 hs
          refine ⟨i, (List.getElem?_eq_some_iff.1 hi).1, by rw [posOf_node hi, e1]; rfl, ?_⟩
          rw [← h.sinks hl h3 hi]
          exact e2
        · rintro ⟨i, hi, e1, e2⟩
          have hi' := List.getElem?_eq_getElem hi
          rw [posOf_node hi'] at e1
          rw [← h.sinks hl h3 hi'] at e2
          exact ⟨_, List.getElem_mem hi, e1, e2⟩
      · rw [hskj]
        exact (hnd _ (List.getElem_mem hjk)).erase _
      · refine List.Nodup.map_on ?_ (hT.ch_nodup hj)
        intro x hx y hy hxy
        exact hinj' x y (hT.child_lt hj hx).1 (hT.child_lt hj hy).1 hxy
    obtain ⟨l, l1, l2⟩ := perm_map_inv hperm
    refine ⟨l, fun arc harc => ?_⟩
    rw [List.getElem?_eq_getElem hj] at harc
    cases harc
    exact ⟨l1, l2⟩
  choose ch2 hch2 using hsinks
  refine ⟨sk, _, _, ch2, rfl, ?_, ?_, harc, hT.reorder (fun j hj => (hch2 j _ (List.getElem?_eq_getElem hj)).1),
    hinj', fun j arc hj => (hch2 j arc hj).2⟩
  · have hne : 0 < out.length := List.length_pos_iff.2 hone
    have := hin 0 hne
    have := List.length_pos_of_mem this
    rw [List.length_map] at this
    omega
  · have := mergeSame_length [] out
    rw [← hkept] at this
    simp only [List.length_nil, Nat.zero_add] at this
    simp only [hsk, List.length_map]
    omega

end
end Polyskel
