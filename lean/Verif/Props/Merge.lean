import Mathlib.Tactic.Ring
import Verif.Props.Clusters
/-
C30 and C31: merging nodes with the same position and clusters of near nodes.
-/
namespace Polyskel
open Scalar

/-- comparing numbers for equality is exact -/
structure ExactEq (S : Type) [Scalar S] : Prop where
  feq : ∀ a b : S, Scalar.feq a b = true ↔ a = b
  eq : ∀ a b : S, Scalar.eq a b = true ↔ a = b

theorem exactEq_real : ExactEq ℝ := ⟨ex_feq, ex_eq⟩

section
variable {S : Type} [Scalar S]

theorem ExactEq.veq (h : ExactEq S) {a b : V2 S} : V2.veq a b = true ↔ a = b := by
  cases a; cases b; simp [V2.veq, h.feq]
theorem ExactEq.teq (h : ExactEq S) {a b : V2 S} : V2.teq a b = true ↔ a = b := by
  cases a; cases b; simp [V2.teq, h.eq]
theorem ExactEq.mem (h : ExactEq S) {a : V2 S} {l : List (V2 S)} : V2.mem a l = true ↔ a ∈ l := by
  simp [V2.mem, List.any_eq_true, h.veq]
theorem ExactEq.mem_false (h : ExactEq S) {a : V2 S} {l : List (V2 S)} :
    V2.mem a l = false ↔ a ∉ l := by
  rw [← h.mem, Bool.not_eq_true]

/-! ### nodes with the same source -/

theorem mem_addSinks (h : ExactEq S) {old new : List (V2 S)} {p : V2 S} :
    p ∈ addSinks old new ↔ p ∈ old ∨ p ∈ new := by
  unfold addSinks
  induction new generalizing old with
  | nil => simp
  | cons s new ih =>
    rw [List.foldl_cons, ih]
    split
    · rename_i hm
      rw [h.mem] at hm
      simp only [List.mem_cons]
      constructor
      · rintro (h | h) <;> tauto
      · rintro (h | rfl | h) <;> tauto
    · simp only [List.mem_append, List.mem_singleton, List.mem_cons]
      tauto

theorem addSinks_prefix (old new : List (V2 S)) : old <+: addSinks old new := by
  unfold addSinks
  induction new generalizing old with
  | nil => exact List.prefix_rfl
  | cons s new ih =>
    rw [List.foldl_cons]
    split
    · exact ih old
    · exact (List.prefix_append _ _).trans (ih _)

theorem findIdx_source (h : ExactEq S) {kept : List (Subtree S)} {p : V2 S} :
    (kept.findIdx? (fun k => V2.teq k.source p) = none ↔ ∀ k ∈ kept, k.source ≠ p) ∧
    ∀ j, kept.findIdx? (fun k => V2.teq k.source p) = some j →
      ∃ a, kept[j]? = some a ∧ a.source = p := by
  constructor
  · simp only [List.findIdx?_eq_none_iff]
    refine forall₂_congr fun k _ => ?_
    rw [← Bool.not_eq_true, h.teq]
  · intro j hj
    have := List.findIdx?_eq_some_iff_getElem.1 hj
    obtain ⟨hlt, hp, _⟩ := this
    exact ⟨kept[j], List.getElem?_eq_getElem hlt, h.teq.1 hp⟩

theorem modify_map_of_eq {α β : Type} {l : List α} {j : Nat} {f : α → α} {g : α → β}
    (h : ∀ a, g (f a) = g a) : (l.modify j f).map g = l.map g := by
  induction l generalizing j with
  | nil => cases j <;> rfl
  | cons a l ih =>
    cases j with
    | zero => simp [h]
    | succ j => simp [ih]

/-- what `mergeSame` maintains: `kept` represents the nodes seen so far -/
def Represents (kept seen : List (Subtree S)) : Prop :=
  (kept.map (·.source)).Nodup ∧
  (∀ s ∈ seen, ∃ k ∈ kept, k.source = s.source) ∧
  ∀ k ∈ kept, (∃ A s B, seen = A ++ s :: B ∧ (∀ a ∈ A, a.source ≠ s.source) ∧
      k.source = s.source ∧ k.height = s.height ∧ s.sinks <+: k.sinks) ∧
    ∀ p, p ∈ k.sinks ↔ ∃ s ∈ seen, s.source = k.source ∧ p ∈ s.sinks

theorem mergeSame_represents (h : ExactEq S) (kept seen rest : List (Subtree S))
    (hr : Represents kept seen) : Represents (mergeSame kept rest) (seen ++ rest) := by
  induction rest generalizing kept seen with
  | nil => simpa [mergeSame] using hr
  | cons s rest ih =>
    have happ : seen ++ s :: rest = (seen ++ [s]) ++ rest := by simp
    rw [happ]
    unfold mergeSame
    obtain ⟨hnd, hcov, hk⟩ := hr
    cases hf : kept.findIdx? (fun k => V2.teq k.source s.source) with
    | none =>
      have hnone := (findIdx_source h).1.1 hf
      refine ih _ _ ⟨?_, ?_, ?_⟩
      · rw [List.map_append, List.nodup_append]
        refine ⟨hnd, by simp, ?_⟩
        intro x hx y hy
        obtain ⟨k, hk, rfl⟩ := List.mem_map.1 hx
        simp at hy; subst hy
        exact hnone k hk
      · intro x hx
        rcases List.mem_append.1 hx with hx | hx
        · obtain ⟨k, h1, h2⟩ := hcov x hx
          exact ⟨k, by simp [h1], h2⟩
        · simp at hx; subst hx; exact ⟨x, by simp, rfl⟩
      · intro k hk'
        rcases List.mem_append.1 hk' with hmem | hk'
        · obtain ⟨⟨A, x, B, e, h1, h2, h3, h4⟩, h5⟩ := hk k hmem
          refine ⟨⟨A, x, B ++ [s], by rw [e]; simp, h1, h2, h3, h4⟩, fun p => ?_⟩
          rw [h5]
          constructor
          · rintro ⟨y, hy, h6⟩; exact ⟨y, by simp [hy], h6⟩
          · rintro ⟨y, hy, h6, h7⟩
            rcases List.mem_append.1 hy with hy | hy
            · exact ⟨y, hy, h6, h7⟩
            · simp at hy; subst hy; exact absurd h6.symm (hnone k hmem)
        · simp at hk'; subst hk'
          have hns : ∀ a ∈ seen, a.source ≠ k.source := by
            intro a ha he
            obtain ⟨k', h1, h2⟩ := hcov a ha
            exact hnone k' h1 (h2.trans he)
          refine ⟨⟨seen, k, [], rfl, hns, rfl, rfl, List.prefix_rfl⟩, fun p => ?_⟩
          constructor
          · intro hp; exact ⟨k, by simp, rfl, hp⟩
          · rintro ⟨y, hy, h6, h7⟩
            rcases List.mem_append.1 hy with hy | hy
            · exact absurd h6 (hns y hy)
            · simp at hy; subst hy; exact h7
    | some j =>
      obtain ⟨a, ha, has⟩ := (findIdx_source h).2 j hf
      refine ih _ _ ⟨?_, ?_, ?_⟩
      · have hmap : (kept.modify j (fun k => { k with sinks := addSinks k.sinks s.sinks })).map
            (·.source) = kept.map (·.source) := modify_map_of_eq (fun _ => rfl)
        rw [hmap]; exact hnd
      · intro x hx
        have hmap : (kept.modify j (fun k => { k with sinks := addSinks k.sinks s.sinks })).map
            (·.source) = kept.map (·.source) := modify_map_of_eq (fun _ => rfl)
        have hm : x.source ∈ kept.map (·.source) := by
          rcases List.mem_append.1 hx with hx | hx
          · obtain ⟨k, h1, h2⟩ := hcov x hx
            exact List.mem_map.2 ⟨k, h1, h2⟩
          · simp at hx; subst hx
            exact List.mem_map.2 ⟨a, List.mem_of_getElem? ha, has⟩
        rw [← hmap] at hm
        obtain ⟨k, h1, h2⟩ := List.mem_map.1 hm
        exact ⟨k, h1, h2⟩
      · intro k hk'
        obtain ⟨i, hi⟩ := List.mem_iff_getElem?.1 hk'
        rw [List.getElem?_modify] at hi
        cases hki : kept[i]? with
        | none => rw [hki] at hi; simp at hi
        | some k0 =>
          rw [hki] at hi
          obtain ⟨⟨A, x, B, e, h1, h2, h3, h4⟩, h5⟩ := hk k0 (List.mem_of_getElem? hki)
          by_cases hij : j = i
          · subst hij
            rw [ha] at hki; cases hki
            simp only [if_true, Option.map_eq_map, Option.map_some, Option.some.injEq] at hi
            subst hi
            refine ⟨⟨A, x, B ++ [s], by rw [e]; simp, h1, h2, h3, h4.trans (addSinks_prefix _ _)⟩,
              fun p => ?_⟩
            rw [mem_addSinks h, h5]
            constructor
            · rintro (⟨y, hy, h6, h7⟩ | hp)
              · exact ⟨y, by simp [hy], h6, h7⟩
              · exact ⟨s, by simp, has.symm, hp⟩
            · rintro ⟨y, hy, h6, h7⟩
              rcases List.mem_append.1 hy with hy | hy
              · exact .inl ⟨y, hy, h6, h7⟩
              · simp at hy; subst hy; exact .inr h7
          · simp only [hij, if_false, Option.map_eq_map, Option.map_some, Option.some.injEq, id] at hi
            subst hi
            refine ⟨⟨A, x, B ++ [s], by rw [e]; simp, h1, h2, h3, h4⟩, fun p => ?_⟩
            rw [h5]
            constructor
            · rintro ⟨y, hy, h6, h7⟩; exact ⟨y, by simp [hy], h6, h7⟩
            · rintro ⟨y, hy, h6, h7⟩
              rcases List.mem_append.1 hy with hy | hy
              · exact ⟨y, hy, h6, h7⟩
              · simp at hy; subst hy
                exfalso
                have e1 : (kept.map (·.source))[i]? = some y.source := by simp [hki, h6]
                have e2 : (kept.map (·.source))[j]? = some y.source := by simp [ha, has]
                obtain ⟨l1, q1⟩ := List.getElem?_eq_some_iff.1 e1
                obtain ⟨l2, q2⟩ := List.getElem?_eq_some_iff.1 e2
                exact hij (((List.Nodup.getElem_inj_iff hnd).1 (q2.trans q1.symm)))

/-- C30: the first step of `mergeNodeClusters` leaves one node per position.  It has the height and
the first sinks of the first node there, and all sinks of all nodes there. -/
theorem C30_mergeSame (h : ExactEq S) (sk : List (Subtree S)) :
    ((mergeSame [] sk).map (·.source)).Nodup ∧
    (∀ s ∈ sk, ∃ k ∈ mergeSame [] sk, k.source = s.source) ∧
    ∀ k ∈ mergeSame [] sk, (∃ A s B, sk = A ++ s :: B ∧ (∀ a ∈ A, a.source ≠ s.source) ∧
        k.source = s.source ∧ k.height = s.height ∧ s.sinks <+: k.sinks) ∧
      ∀ p, p ∈ k.sinks ↔ ∃ s ∈ sk, s.source = k.source ∧ p ∈ s.sinks := by
  have := mergeSame_represents h [] [] sk ⟨by simp, by simp, by simp⟩
  simpa [Represents] using this

theorem mergeSame_length (kept rest : List (Subtree S)) :
    (mergeSame kept rest).length ≤ kept.length + rest.length := by
  induction rest generalizing kept with
  | nil => simp [mergeSame]
  | cons s rest ih =>
    unfold mergeSame
    split
    · refine (ih _).trans ?_; simp
    · refine (ih _).trans ?_; simp; omega

/-! ### one cluster -/

theorem dropIdx_map {α β : Type} (f : α → β) (idx : List Nat) (l : List α) :
    dropIdx idx (l.map f) = (dropIdx idx l).map f := by
  unfold dropIdx
  rw [List.zipIdx_map, List.filter_map, List.map_map, List.map_map]
  congr 1

theorem dropIdx_length {α : Type} (idx : List Nat) (l : List α) (hn : idx.Nodup)
    (hr : ∀ i ∈ idx, i < l.length) : (dropIdx idx l).length + idx.length = l.length := by
  have h := (dropIdx_perm idx l hn hr).length_eq
  rw [List.length_append] at h
  have : (idx.filterMap (fun i => l[i]?)).length = idx.length := by
    clear h hn
    induction idx with
    | nil => rfl
    | cons i idx ih =>
      have hi := hr i (by simp)
      rw [List.filterMap_cons]
      simp only [List.getElem?_eq_getElem hi, List.length_cons]
      rw [ih (fun i h => hr i (by simp [h]))]
  omega

/-- the redirection loop when the new source is already there -/
theorem redirect_present (h : ExactEq S) {merged : List (V2 S)} {new : V2 S}
    {pre : List (V2 S × Bool)} {rest : List (V2 S)} (hin : new ∈ pre.map (·.1) ++ rest) :
    dropMarked (redirectSinks merged new pre rest) =
      dropMarked pre ++ rest.filter (fun s => !V2.mem s merged) := by
  induction rest generalizing pre with
  | nil => simp [redirectSinks]
  | cons s rest ih =>
    unfold redirectSinks
    have hmem : V2.mem new (pre.map (·.1) ++ s :: rest) = true := h.mem.2 hin
    rw [List.filter_cons]
    by_cases hs : V2.mem s merged = true
    · rw [if_pos hs, if_pos hmem, ih (by simpa using hin)]
      simp [hs, dropMarked]
    · rw [if_neg hs, ih (by simpa using hin)]
      simp [hs, dropMarked]

theorem redirect_none {merged : List (V2 S)} {new : V2 S}
    {pre : List (V2 S × Bool)} {rest : List (V2 S)} (hn : ∀ s ∈ rest, V2.mem s merged = false) :
    dropMarked (redirectSinks merged new pre rest) = dropMarked pre ++ rest := by
  induction rest generalizing pre with
  | nil => simp [redirectSinks]
  | cons s rest ih =>
    unfold redirectSinks
    rw [if_neg (by rw [hn s (by simp)]; simp), ih (fun s hs => hn s (by simp [hs]))]
    simp [dropMarked]

theorem redirect_absent (h : ExactEq S) {merged : List (V2 S)} {new : V2 S}
    {pre : List (V2 S × Bool)} {A B : List (V2 S)} {m : V2 S}
    (hin : new ∉ pre.map (·.1) ++ (A ++ m :: B)) (hA : ∀ s ∈ A, V2.mem s merged = false)
    (hm : V2.mem m merged = true) :
    dropMarked (redirectSinks merged new pre (A ++ m :: B)) =
      dropMarked pre ++ A ++ new :: B.filter (fun s => !V2.mem s merged) := by
  induction A generalizing pre with
  | nil =>
    rw [List.nil_append] at hin ⊢
    unfold redirectSinks
    rw [if_pos hm, if_neg (by rw [h.mem]; exact hin), redirect_present h (by simp)]
    simp [dropMarked]
  | cons s A ih =>
    rw [List.cons_append]
    unfold redirectSinks
    rw [if_neg (by rw [hA s (by simp)]; simp), ih (by simpa using hin) (fun s hs => hA s (by simp [hs]))]
    simp [dropMarked]

theorem collectSinks_aux (h : ExactEq S) (merged all acc : List (V2 S)) (hacc : acc.Nodup) :
    let r := all.foldl (fun acc s => if !V2.mem s merged && !V2.mem s acc then acc ++ [s] else acc) acc
    r.Nodup ∧ (∀ p, p ∈ r ↔ p ∈ acc ∨ (p ∈ all ∧ p ∉ merged)) ∧
      ∃ r', r = acc ++ r' ∧ r'.Sublist all := by
  induction all generalizing acc with
  | nil => exact ⟨hacc, by simp, [], by simp, by simp⟩
  | cons s all ih =>
    simp only [List.foldl_cons]
    split
    · rename_i hc
      simp only [Bool.and_eq_true, Bool.not_eq_true', h.mem_false] at hc
      obtain ⟨h1, h2, r', h3, h4⟩ := ih (acc ++ [s]) (by
        rw [List.nodup_append]
        exact ⟨hacc, by simp, fun a ha b hb => by simp at hb; subst hb; exact fun e => hc.2 (e ▸ ha)⟩)
      refine ⟨h1, fun p => ?_, s :: r', by rw [h3]; simp, h4.cons₂ s⟩
      rw [h2]
      simp only [List.mem_append, List.mem_singleton, List.mem_cons]
      constructor
      · rintro ((h | rfl | h) | h)
        · exact .inl h
        · exact .inr ⟨.inl rfl, hc.1⟩
        · simp at h
        · exact .inr ⟨.inr h.1, h.2⟩
      · rintro (h | ⟨rfl | h, h'⟩)
        · exact .inl (.inl h)
        · exact .inl (.inr (.inl rfl))
        · exact .inr ⟨h, h'⟩
    · rename_i hc
      simp only [Bool.and_eq_true, Bool.not_eq_true', h.mem_false, not_and, not_not] at hc
      obtain ⟨h1, h2, r', h3, h4⟩ := ih acc hacc
      refine ⟨h1, fun p => ?_, r', h3, h4.cons s⟩
      rw [h2]
      simp only [List.mem_cons]
      constructor
      · rintro (h | h)
        · exact .inl h
        · exact .inr ⟨.inr h.1, h.2⟩
      · rintro (h | ⟨rfl | h, h'⟩)
        · exact .inl h
        · exact .inl (hc h')
        · exact .inr ⟨h, h'⟩

/-- how a node `a` outside the cluster looks afterwards -/
def Redirected (merged : List (V2 S)) (new : V2 S) (a b : Subtree S) : Prop :=
  b.source = a.source ∧ b.height = a.height ∧
  (a.source ∈ merged → b = a) ∧
  (a.source ∉ merged →
    -- nothing to redirect
    ((∀ s ∈ a.sinks, s ∉ merged) → b.sinks = a.sinks) ∧
    -- already connected to the new position: the connections to the cluster disappear
    (new ∈ a.sinks → ∃ keep : V2 S → Bool, (∀ s, keep s = true ↔ s ∉ merged) ∧
      b.sinks = a.sinks.filter keep) ∧
    -- otherwise the first of them leads to the new position and the others disappear
    (new ∉ a.sinks → ∀ A m B, a.sinks = A ++ m :: B → (∀ s ∈ A, s ∉ merged) → m ∈ merged →
      ∃ keep : V2 S → Bool, (∀ s, keep s = true ↔ s ∉ merged) ∧
        b.sinks = A ++ new :: B.filter keep))

theorem mergeCluster_ok (h : ExactEq S) {sk out : List (Subtree S)} {cluster : List Nat}
    (ho : mergeCluster sk cluster = .ok out) :
    ∃ nodes kept new, List.Forall₂ (fun c a => sk[c]? = some a) cluster nodes ∧
      out = kept ++ [new] ∧
      new.source = mkV2 (nodes.foldl (fun acc a => acc +. a.source.x) fzero /. lit cluster.length 1)
        (nodes.foldl (fun acc a => acc +. a.source.y) fzero /. lit cluster.length 1) ∧
      new.height = nodes.foldl (fun acc a => acc +. a.height) fzero /. lit cluster.length 1 ∧
      new.sinks.Nodup ∧ new.sinks.Sublist (nodes.flatMap (·.sinks)) ∧
      (∀ p, p ∈ new.sinks ↔ (∃ a ∈ nodes, p ∈ a.sinks) ∧ p ∉ nodes.map (·.source)) ∧
      List.Forall₂ (Redirected (nodes.map (·.source)) new.source)
        ((sk.zipIdx.filter (fun p => p.2 ∉ cluster)).map (·.1)) kept := by
  unfold mergeCluster at ho
  obtain ⟨nodes, hn, ho⟩ := bind_ok.1 ho
  obtain ⟨nx, hx, ho⟩ := bind_ok.1 ho
  obtain ⟨ny, hy, ho⟩ := bind_ok.1 ho
  obtain ⟨nh, hh, ho⟩ := bind_ok.1 ho
  have hdiv : ∀ {a b r : S}, pydiv a b = .ok r → r = a /. b := by
    intro a b r hr
    unfold pydiv at hr
    split at hr
    · cases hr
    · cases hr; rfl
  have hx := hdiv hx
  have hy := hdiv hy
  have hh := hdiv hh
  subst hx hy hh
  cases ho
  obtain ⟨h1, h2, r', h3, h4⟩ := collectSinks_aux h (nodes.map (·.source)) (nodes.flatMap (·.sinks)) []
    (by simp)
  refine ⟨nodes, _, _, ?_, rfl, rfl, rfl, h1, ?_, ?_, ?_⟩
  · refine (mapM_ok hn).imp ?_
    intro c a hca
    unfold getArc at hca
    cases hc : sk[c]? with
    | none => rw [hc] at hca; cases hca
    | some x => rw [hc] at hca; cases hca; rfl
  · have : collectSinks (nodes.map (·.source)) (nodes.flatMap (·.sinks)) = r' := by
      unfold collectSinks; rw [h3]; rfl
    rw [this]; exact h4
  · intro p
    refine (h2 p).trans ?_
    simp
  · rw [dropIdx_map]
    have hdd : dropIdx cluster sk = (sk.zipIdx.filter (fun p => p.2 ∉ cluster)).map (·.1) := by
      unfold dropIdx
      congr 1
      apply List.filter_congr
      intro p _
      by_cases hp : p.2 ∈ cluster <;> simp [hp]
    rw [hdd, List.forall₂_map_right_iff]
    apply List.forall₂_same.2
    intro a _
    have keep : ∀ s : V2 S, (!V2.mem s (nodes.map (·.source))) = true ↔ s ∉ nodes.map (·.source) := by
      intro s; rw [Bool.not_eq_true', h.mem_false]
    by_cases ha : V2.mem a.source (nodes.map (·.source)) = true
    · simp only [ha, if_true]
      exact ⟨rfl, rfl, fun _ => rfl, fun hc => absurd (h.mem.1 ha) hc⟩
    · simp only [ha, if_false]
      refine ⟨rfl, rfl, fun hc => absurd (h.mem.2 hc) ha, fun _ => ⟨?_, ?_, ?_⟩⟩
      · intro hs
        show dropMarked _ = _
        rw [redirect_none (fun s hs' => h.mem_false.2 (hs s hs'))]
        simp [dropMarked]
      · intro hin
        refine ⟨_, keep, ?_⟩
        show dropMarked _ = _
        rw [redirect_present h (by simpa using hin)]
        simp [dropMarked]
      · intro hin A m B hab hA hm
        refine ⟨_, keep, ?_⟩
        show dropMarked _ = _
        rw [hab, redirect_absent h (by simpa [hab] using hin) (fun s hs => h.mem_false.2 (hA s hs))
          (h.mem.2 hm)]
        simp [dropMarked]

/-- lengths: each merge loses all nodes of the cluster but one -/
theorem mergeCluster_length {sk out : List (Subtree S)} {cluster : List Nat} (hn : cluster.Nodup)
    (hr : ∀ c ∈ cluster, c < sk.length) (ho : mergeCluster sk cluster = .ok out) :
    out.length + cluster.length = sk.length + 1 := by
  unfold mergeCluster at ho
  obtain ⟨nodes, _, ho⟩ := bind_ok.1 ho
  obtain ⟨nx, _, ho⟩ := bind_ok.1 ho
  obtain ⟨ny, _, ho⟩ := bind_ok.1 ho
  obtain ⟨nh, _, ho⟩ := bind_ok.1 ho
  cases ho
  rw [List.length_append, dropIdx_map, List.length_map, List.length_singleton]
  have := dropIdx_length cluster sk hn hr
  omega

end

/-! ### C31, exact arithmetic -/

theorem foldl_add_sum {α : Type} (l : List α) (f : α → ℝ) (x : ℝ) :
    l.foldl (fun acc a => Scalar.add acc (f a)) x = x + (l.map f).sum := by
  induction l generalizing x with
  | nil => simp
  | cons a l ih => rw [List.foldl_cons, ih]; simp; ring

/-- C31: merging a non-empty group of nodes never fails.  The new node comes last; its position and
height are the means; its sinks are, without repetition, the sinks of the group that are no nodes of
the group.  The nodes outside the group stay in their order, with redirected sinks. -/
theorem C31_mergeCluster (sk : List (Subtree ℝ)) (cluster : List Nat) (hne : cluster ≠ [])
    (hr : ∀ c ∈ cluster, c < sk.length) :
    ∃ (nodes kept : List (Subtree ℝ)) (new : Subtree ℝ), mergeCluster sk cluster = .ok (kept ++ [new]) ∧
      List.Forall₂ (fun c a => sk[c]? = some a) cluster nodes ∧
      new.source.x = (nodes.map (fun a => a.source.x)).sum / (nodes.length : ℝ) ∧
      new.source.y = (nodes.map (fun a => a.source.y)).sum / (nodes.length : ℝ) ∧
      new.height = (nodes.map (fun a => a.height)).sum / (nodes.length : ℝ) ∧
      new.sinks.Nodup ∧ new.sinks.Sublist (nodes.flatMap (·.sinks)) ∧
      (∀ p, p ∈ new.sinks ↔ (∃ a ∈ nodes, p ∈ a.sinks) ∧ p ∉ nodes.map (·.source)) ∧
      List.Forall₂ (Redirected (nodes.map (·.source)) new.source)
        ((sk.zipIdx.filter (fun p => p.2 ∉ cluster)).map (·.1)) kept := by
  have hok : ∃ out, mergeCluster sk cluster = .ok out := by
    unfold mergeCluster
    obtain ⟨nodes, hn⟩ := mapM_total (f := getArc sk) (l := cluster) (fun c hc => by
      unfold getArc; rw [List.getElem?_eq_getElem (hr c hc)]; exact ⟨_, rfl⟩)
    have hlen : (cluster.length : ℝ) ≠ 0 := by
      have := List.length_pos_iff.2 hne
      exact_mod_cast (by omega : cluster.length ≠ 0)
    have hd : ∀ x : ℝ, pydiv x (lit cluster.length 1) = .ok (x / cluster.length) := by
      intro x; unfold pydiv; simp [hlen]
    rw [hn]
    simp only [ok_bind, hd]
    exact ⟨_, rfl⟩
  obtain ⟨out, ho⟩ := hok
  obtain ⟨nodes, kept, new, h1, rfl, h3, h4, h5⟩ := mergeCluster_ok exactEq_real ho
  have hl := h1.length_eq
  refine ⟨nodes, kept, new, ho, h1, ?_, ?_, ?_, h5⟩
  · rw [h3]; simp only [mkV2, foldl_add_sum]; simp [hl]
  · rw [h3]; simp only [mkV2, foldl_add_sum]; simp [hl]
  · rw [h4]; simp only [foldl_add_sum]; simp [hl]

theorem first_mem {α : Type} {l merged : List α} (h : ∃ s ∈ l, s ∈ merged) :
    ∃ A m B, l = A ++ m :: B ∧ (∀ s ∈ A, s ∉ merged) ∧ m ∈ merged := by
  obtain ⟨s, hs, hsm⟩ := h
  induction l with
  | nil => simp at hs
  | cons x l ih =>
    by_cases hx : x ∈ merged
    · exact ⟨[], x, l, rfl, by simp, hx⟩
    · rcases List.mem_cons.1 hs with rfl | hs
      · exact absurd hsm hx
      · obtain ⟨A, m, B, e, hA, hm⟩ := ih hs
        exact ⟨x :: A, m, B, by rw [e]; rfl, by simpa [hx] using hA, hm⟩

/-- C31: when the new position is not the position of one of the merged nodes, a node outside the
group without repeated sinks that was connected to the group is connected to the new node exactly
once, is connected to the group no more, and keeps its other connections. -/
theorem C31_redirect (merged : List (V2 ℝ)) (new : V2 ℝ) (hnew : new ∉ merged) (a b : Subtree ℝ)
    (hab : Redirected merged new a b) (hsrc : a.source ∉ merged) (hnd : a.sinks.Nodup)
    (hcon : ∃ s ∈ a.sinks, s ∈ merged) :
    b.sinks.count new = 1 ∧ (∀ s ∈ b.sinks, s ∉ merged) ∧
      ∀ p, p ≠ new → (p ∈ b.sinks ↔ p ∈ a.sinks ∧ p ∉ merged) := by
  obtain ⟨_, _, _, h⟩ := hab
  obtain ⟨_, h2, h3⟩ := h hsrc
  by_cases hin : new ∈ a.sinks
  · obtain ⟨keep, hk, hb⟩ := h2 hin
    rw [hb]
    refine ⟨?_, ?_, ?_⟩
    · exact List.count_eq_one_of_mem (hnd.filter _) (List.mem_filter.2 ⟨hin, (hk _).2 hnew⟩)
    · intro s hs; exact (hk s).1 (List.mem_filter.1 hs).2
    · intro p _; rw [List.mem_filter, hk]
  · obtain ⟨s, hs, hsm⟩ := hcon
    -- the first sink in the group
    obtain ⟨A, m, B, e, hA, hm⟩ := first_mem ⟨s, hs, hsm⟩
    obtain ⟨keep, hk, hb⟩ := h3 hin A m B e hA hm
    rw [hb]
    rw [e] at hin
    simp only [List.mem_append, List.mem_cons, not_or] at hin
    refine ⟨?_, ?_, ?_⟩
    · rw [List.count_append, List.count_cons_self, List.count_eq_zero_of_not_mem hin.1,
        List.count_eq_zero_of_not_mem (fun hc => hin.2.2 (List.mem_filter.1 hc).1)]
    · intro x hx
      simp only [List.mem_append, List.mem_cons, List.mem_filter, hk] at hx
      rcases hx with hx | rfl | hx
      · exact hA x hx
      · exact hnew
      · exact hx.2
    · intro p hp
      rw [e]
      simp only [List.mem_append, List.mem_cons, List.mem_filter, hk, hp, false_or]
      constructor
      · rintro (h | h)
        · exact ⟨.inl h, hA p h⟩
        · exact ⟨.inr (.inr h.1), h.2⟩
      · rintro ⟨h | rfl | h, h'⟩
        · exact .inl h
        · exact absurd hm h'
        · exact .inr ⟨h, h'⟩

/-- C31, the defect: when the mean of a cluster is the position of one of its nodes (here three nodes
at equal distances on a line, the middle one connected to the node far away), the connection of an
outside node to that node is lost. -/
theorem C31_connection_lost :
    mergeCluster [⟨sp2 0 0, sq 1, []⟩, ⟨mkV2 (sq 1 32) (sq 0), sq 1, []⟩,
        ⟨mkV2 (sq 1 16) (sq 0), sq 1, []⟩, ⟨sp2 5 5, sq 2, [mkV2 (sq 1 32) (sq 0), sp2 9 9]⟩]
        [0, 1, 2] =
      .ok [⟨sp2 5 5, sq 2, [sp2 9 9]⟩, ⟨mkV2 (sq 1 32) (sq 0), sq 1, []⟩] := by
  decide +kernel

/-- case for C31: two nodes are merged, a third one is connected to both -/
example : mergeCluster [⟨sp2 0 0, sq 1, [sp2 (-9) 0]⟩,
        ⟨mkV2 (sq 1 16) (sq 0), sq 2, [sp2 9 0, sp2 0 0, sp2 (-9) 0]⟩,
        ⟨sp2 5 5, sq 2, [sp2 7 7, mkV2 (sq 1 16) (sq 0), sp2 9 9, sp2 0 0]⟩] [0, 1] =
      .ok [⟨sp2 5 5, sq 2, [sp2 7 7, mkV2 (sq 1 32) (sq 0), sp2 9 9]⟩,
           ⟨mkV2 (sq 1 32) (sq 0), sq 3 2, [sp2 (-9) 0, sp2 9 0]⟩] := by
  decide +kernel

/-! ### C30 -/

section
variable {S : Type} [Scalar S]

theorem longest_mem (best : List Nat) (cs : List (List Nat)) :
    longest best cs ∈ best :: cs ∧ ∀ c ∈ best :: cs, c.length ≤ (longest best cs).length := by
  induction cs generalizing best with
  | nil => simp [longest]
  | cons c cs ih =>
    unfold longest
    obtain ⟨h1, h2⟩ := ih (if best.length < c.length then c else best)
    constructor
    · rcases List.mem_cons.1 h1 with h | h
      · rw [h]; split <;> simp
      · simp [h]
    · intro x hx
      have hb := h2 (if best.length < c.length then c else best) (by simp)
      simp only [List.mem_cons] at hx
      rcases hx with rfl | rfl | hx
      · refine le_trans ?_ hb; split <;> omega
      · refine le_trans ?_ hb; split <;> omega
      · exact h2 x (by simp [hx])

/-- `k` merges, each of a largest group of near nodes, lead from `sk` to `out`, where no group is
left -/
inductive Merges (cv : List (V2 S)) (outer : List (Edge2 S)) :
    Nat → List (Subtree S) → List (Subtree S) → Prop
  | done {sk} : findClusters sk cv outer (lit 1 10) = .ok [] → Merges cv outer 0 sk sk
  | step {k sk sk' out cls c} : findClusters sk cv outer (lit 1 10) = .ok cls → c ∈ cls →
      (∀ c' ∈ cls, c'.length ≤ c.length) → mergeCluster sk c = .ok sk' →
      Merges cv outer k sk' out → Merges cv outer (k + 1) sk out

theorem Merges.final {cv : List (V2 S)} {outer : List (Edge2 S)} {k : Nat} {sk out : List (Subtree S)}
    (h : Merges cv outer k sk out) : findClusters out cv outer (lit 1 10) = .ok [] := by
  induction h with
  | done h => exact h
  | step _ _ _ _ _ ih => exact ih

theorem mergeLoop_spec (cv : List (V2 S)) (outer : List (Edge2 S)) (k : Nat) (sk : List (Subtree S))
    (hk : sk.length < k) :
    (∃ m out, mergeLoop cv outer k sk = .ok out ∧ Merges cv outer m sk out ∧ out.length + m ≤ sk.length) ∨
    ∃ e, mergeLoop cv outer k sk = .error e ∧ (detectApses outer = .error e ∨
      (e = .zeroDivision ∧ ∃ n : Nat, 1 < n ∧ ((lit n 1 : S) ==. fzero) = true)) := by
  induction k generalizing sk with
  | zero => omega
  | succ k ih =>
    unfold mergeLoop
    cases hf : findClusters sk cv outer (lit 1 10) with
    | error e =>
      right
      refine ⟨e, rfl, .inl ?_⟩
      rcases C32_groups sk cv outer (lit 1 10) with ⟨e', h1, h2⟩ | ⟨_, _, _, _, h2⟩
      · rw [hf] at h2; cases h2; exact h1
      · rw [hf] at h2; cases h2
    | ok cls =>
      cases cls with
      | nil =>
        left
        exact ⟨0, sk, rfl, .done hf, by omega⟩
      | cons c cs =>
        simp only [ok_bind]
        obtain ⟨hm, hmax⟩ := longest_mem c cs
        obtain ⟨hlen2, hpw, hrange, _⟩ := (C32_findClusters sk cv outer _ _ hf).2.1 _ hm
        have hnd : (longest c cs).Nodup := hpw.imp (fun h => Nat.ne_of_lt h)
        cases hmc : mergeCluster sk (longest c cs) with
        | error e =>
          right
          refine ⟨e, rfl, .inr ?_⟩
          unfold mergeCluster at hmc
          obtain ⟨nodes, hn⟩ := mapM_total (f := getArc sk) (l := longest c cs) (fun c hc => by
            unfold getArc; rw [List.getElem?_eq_getElem (hrange c hc)]; exact ⟨_, rfl⟩)
          rw [hn] at hmc
          simp only [ok_bind] at hmc
          have hd : ∀ {a : S} {e}, pydiv a (lit (longest c cs).length 1) = .error e →
              e = .zeroDivision ∧ ∃ n : Nat, 1 < n ∧ ((lit n 1 : S) ==. fzero) = true := by
            intro a e h
            unfold pydiv at h
            split at h
            · rename_i hz; cases h; exact ⟨rfl, _, hlen2, hz⟩
            · cases h
          rcases bind_error.1 hmc with h | ⟨_, _, hmc⟩
          · exact hd h
          rcases bind_error.1 hmc with h | ⟨_, _, hmc⟩
          · exact hd h
          rcases bind_error.1 hmc with h | ⟨_, _, hmc⟩
          · exact hd h
          cases hmc
        | ok sk' =>
          have hl := mergeCluster_length hnd hrange hmc
          simp only [ok_bind]
          rcases ih sk' (by omega) with ⟨m, out, h1, h2, h3⟩ | h
          · left
            exact ⟨m + 1, out, h1, .step hf hm hmax hmc h2, by omega⟩
          · exact .inr h

/-- C30: `mergeNodeClusters` always ends.  When it returns, it has merged nodes with the same source,
then, at most once per node, a largest group of near nodes, until no group is left to merge; each
merge reduces the number of nodes. -/
theorem C30_mergeNodeClusters (sk : List (Subtree S)) (contours : List (List (Edge2 S))) :
    (∃ outer rest m out, contours = outer :: rest ∧ mergeNodeClusters sk contours = .ok out ∧
      Merges (contours.flatMap (fun c => c.map (·.p1))) outer m (mergeSame [] sk) out ∧
      findClusters out (contours.flatMap (fun c => c.map (·.p1))) outer (lit 1 10) = .ok [] ∧
      out.length + m ≤ sk.length) ∨
    (contours = [] ∧ mergeNodeClusters sk contours = .error .index) ∨
    ∃ outer rest e, contours = outer :: rest ∧ mergeNodeClusters sk contours = .error e ∧
      (detectApses outer = .error e ∨
      (e = .zeroDivision ∧ ∃ n : Nat, 1 < n ∧ ((lit n 1 : S) ==. fzero) = true)) := by
  unfold mergeNodeClusters
  cases contours with
  | nil => exact .inr (.inl ⟨rfl, rfl⟩)
  | cons outer rest =>
    simp only
    have hl := mergeSame_length [] sk
    simp only [List.length_nil, Nat.zero_add] at hl
    rcases mergeLoop_spec ((outer :: rest).flatMap (fun c => c.map (·.p1))) outer
      ((mergeSame [] sk).length + 1) (mergeSame [] sk) (by omega) with ⟨m, out, h1, h2, h3⟩ | ⟨e, h1, h2⟩
    · left
      refine ⟨outer, rest, m, out, rfl, h1, h2, ?_, by omega⟩
      exact h2.final
    · exact .inr (.inr ⟨outer, rest, e, rfl, h1, h2⟩)

end

/-- C30, exact arithmetic: merging fails exactly when the detection of apses fails, or when there is no
contour at all. -/
theorem C30_raises (sk : List (Subtree ℝ)) (contours : List (List (Edge2 ℝ))) (e : PyErr)
    (h : mergeNodeClusters sk contours = .error e) :
    (contours = [] ∧ e = .index) ∨ ∃ outer rest, contours = outer :: rest ∧ detectApses outer = .error e := by
  rcases C30_mergeNodeClusters sk contours with ⟨_, _, _, _, _, h1, _⟩ | ⟨rfl, h1⟩ | ⟨outer, rest, e', rfl, h1, h2⟩
  · rw [h] at h1; cases h1
  · rw [h] at h1; cases h1; exact .inl ⟨rfl, rfl⟩
  · rw [h] at h1; cases h1
    rcases h2 with h2 | ⟨_, n, hn, h2⟩
    · exact .inr ⟨outer, rest, rfl, h2⟩
    · simp at h2; omega

/-- C30, the converse -/
theorem C30_raises_conv (sk : List (Subtree ℝ)) (outer : List (Edge2 ℝ)) (rest : List (List (Edge2 ℝ)))
    (e : PyErr) (h : detectApses outer = .error e) : mergeNodeClusters sk (outer :: rest) = .error e := by
  unfold mergeNodeClusters mergeLoop findClusters
  simp only [h, error_bind]

/-- case for C30: of four nodes two have the same position and a third is near them; all three become
one node -/
example : mergeNodeClusters [⟨sp2 0 0, sq 1, [sp2 (-9) (-9)]⟩, ⟨sp2 0 0, sq 2, [sp2 9 (-9)]⟩,
        ⟨mkV2 (sq 1 16) (sq 0), sq 2, [sp2 0 9]⟩, ⟨sp2 5 5, sq 2, [sp2 0 0]⟩]
        [ringEdges [(-20, -20), (20, -20), (0, 20)]] =
      .ok [⟨sp2 5 5, sq 2, [mkV2 (sq 1 32) (sq 0)]⟩,
           ⟨mkV2 (sq 1 32) (sq 0), sq 3 2, [sp2 (-9) (-9), sp2 9 (-9), sp2 0 9]⟩] := by
  decide +kernel

end Polyskel
