import Verif.Proofs.Safe
import Verif.Proofs.Initial
import Verif.Props.Dormers
import Verif.Props.Apses
import Verif.Props.Merge
import Verif.Props.Ghosts
/-
Lemmas for C77: everything before and after the event loop.
-/
namespace Polyskel
open Scalar
set_option linter.unusedSectionVars false
variable {S : Type} [Scalar S]

theorem Built.tidy {s0 st : St S} {ps : List (Edge2 S × Edge2 S)} (h : Built s0 ps st) (hne : ps ≠ [])
    (h0 : Tidy s0) : Tidy st := by
  have hpos : 0 < ps.length := List.length_pos_iff.2 hne
  have hlen := h.len
  have hl : st.lavs.length = s0.lavs.length + 1 := by rw [h.lavs]; simp
  refine ⟨?_, ?_, ?_, ?_, ?_⟩
  · intro i v hv
    have hi := (List.getElem?_eq_some_iff.1 hv).1
    have hp : st.pv i = some v.prev := by simp [St.pv, hv]
    by_cases hk : i < s0.vs.length
    · rw [h.pv0 i hk] at hp
      simp only [St.pv, Option.map_eq_some_iff] at hp
      obtain ⟨w, hw, e⟩ := hp
      have := h0.prev i w hw
      omega
    · have := h.pv (i - s0.vs.length) (by omega)
      rw [show s0.vs.length + (i - s0.vs.length) = i by omega, hp] at this
      simp only [Option.some.injEq] at this
      split at this <;> omega
  · intro i v hv
    have hi := (List.getElem?_eq_some_iff.1 hv).1
    have hp : st.nx i = some v.next := by simp [St.nx, hv]
    by_cases hk : i < s0.vs.length
    · rw [h.nx0 i hk] at hp
      simp only [St.nx, Option.map_eq_some_iff] at hp
      obtain ⟨w, hw, e⟩ := hp
      have := h0.next i w hw
      omega
    · have := h.nx (i - s0.vs.length) (by omega)
      rw [show s0.vs.length + (i - s0.vs.length) = i by omega, hp] at this
      simp only [Option.some.injEq] at this
      split at this <;> omega
  · intro i v hv l hl'
    have hi := (List.getElem?_eq_some_iff.1 hv).1
    have hp : st.lv i = some v.lav := by simp [St.lv, hv]
    by_cases hk : i < s0.vs.length
    · rw [h.lv0 i hk] at hp
      simp only [St.lv, Option.map_eq_some_iff] at hp
      obtain ⟨w, hw, e⟩ := hp
      have := h0.lav i w hw l (by rw [e]; exact hl')
      omega
    · have := h.lv (i - s0.vs.length) (by omega)
      rw [show s0.vs.length + (i - s0.vs.length) = i by omega, hp, hl'] at this
      simp only [Option.some.injEq] at this
      omega
  · intro l o ho
    rw [h.lavs] at ho
    by_cases hk : l < s0.lavs.length
    · rw [List.getElem?_append_left hk] at ho
      have := h0.head l o ho
      omega
    · rw [List.getElem?_append_right (by omega)] at ho
      have := List.mem_of_getElem? ho
      simp only [List.mem_singleton] at this
      subst this
      simp only [hne, if_false]
      omega
  · intro l hl'
    rw [h.slav] at hl'
    have := h0.slav l hl'
    omega

theorem fromContours_tidy {cs : List (List (Edge2 S))} {s0 : St S} (h0 : Tidy s0) (hne : ∀ c ∈ cs, c ≠ []) :
    ∃ st t, fromContours s0 cs = .ok st ∧ Tidy st ∧ st.slav = s0.slav ++ t ∧
      (∀ k < s0.vs.length, st.nx k = s0.nx k) ∧ (∀ k < s0.vs.length, st.pv k = s0.pv k) ∧
      (∀ l < s0.lavs.length, st.lavs[l]? = s0.lavs[l]?) := by
  induction cs generalizing s0 with
  | nil => exact ⟨s0, [], rfl, h0, by simp, by simp, by simp, by simp⟩
  | cons c cs ih =>
    have hc := hne c (by simp)
    have hne' : cornerPairs c ≠ [] := by
      intro e
      have := cornerPairs_length c
      rw [e] at this
      exact hc (List.length_eq_zero_iff.1 this.symm)
    obtain ⟨s1, h1, hb⟩ := fromPolygon_built s0 hc
    have t1 := hb.tidy hne' h0
    have e1 : s1.lavs.length = s0.lavs.length + 1 := by rw [hb.lavs]; simp
    have t2 : Tidy { s1 with slav := s1.slav ++ [s0.lavs.length] } := t1.setSlav _ (by
      intro x hx
      rcases List.mem_append.1 hx with hx | hx
      · exact t1.slav x hx
      · rw [List.mem_singleton.1 hx]; omega)
    obtain ⟨st, t, h2, h3, h4, h5, h6, h7⟩ := ih t2 (fun d hd => hne d (List.mem_cons_of_mem _ hd))
    have el := hb.len
    refine ⟨st, s0.lavs.length :: t, ?_, h3, ?_, ?_, ?_, ?_⟩
    · unfold fromContours
      rw [h1, ok_bind]
      exact h2
    · rw [h4]; simp [hb.slav]
    · intro k hk
      exact (h5 k (by show k < s1.vs.length; omega)).trans (hb.nx0 k hk)
    · intro k hk
      exact (h6 k (by show k < s1.vs.length; omega)).trans (hb.pv0 k hk)
    · intro l hl
      rw [h7 l (by show l < s1.lavs.length; omega)]
      show s1.lavs[l]? = _
      rw [hb.lavs, List.getElem?_append_left hl]

theorem chainLavs_safe {st : St S} (h : Tidy st) {ls : List Nat} (hl : ∀ l ∈ ls, l < st.lavs.length) :
    Safe LoopErr (chainLavs st ls) (fun ids => ∀ i ∈ ids, i < st.vs.length) := by
  induction ls with
  | nil => intro i hi; cases hi
  | cons l ls ih =>
    unfold chainLavs
    refine (listLav_safe h (hl l (by simp))).bind fun a ha => ?_
    refine (ih fun x hx => hl x (by simp [hx])).bind fun b hb => ?_
    intro i hi
    rcases List.mem_append.1 hi with hi | hi
    · exact ha i hi
    · exact hb i hi

theorem empty_tidy : Tidy ({ vs := [], lavs := [], slav := [], orig := [] } : St S) :=
  ⟨by simp, by simp, by simp, by simp, by simp⟩

/-- the initial wavefront has no loose ends, and the vertices of the outer contour are on it -/
theorem mkSlav_safe {outer : List (Edge2 S)} {rest : List (List (Edge2 S))} (hne : ∀ c ∈ outer :: rest, c ≠ []) :
    Safe LoopErr (mkSlav (outer :: rest)) (fun st => Tidy st ∧
      ∀ ids, chainLavs st st.slav = .ok ids → outer.length ≤ ids.length) := by
  have hc := hne outer (by simp)
  have hne' : cornerPairs outer ≠ [] := by
    intro e
    have := cornerPairs_length outer
    rw [e] at this
    exact hc (List.length_eq_zero_iff.1 this.symm)
  obtain ⟨s1, h1, hb⟩ := fromPolygon_built ({ vs := [], lavs := [], slav := [], orig := [] } : St S) hc
  have t1 := hb.tidy hne' empty_tidy
  have e1 : s1.lavs.length = 1 := by rw [hb.lavs]; simp
  have e2 : s1.vs.length = outer.length := by rw [hb.len, cornerPairs_length]; simp
  have t2 : Tidy { s1 with slav := s1.slav ++ [0] } := t1.setSlav _ (by
    intro x hx
    rcases List.mem_append.1 hx with hx | hx
    · exact t1.slav x hx
    · rw [List.mem_singleton.1 hx]; omega)
  obtain ⟨st, t, h2, h3, h4, h5, h6, h7⟩ := fromContours_tidy t2 (fun d hd => hne d (List.mem_cons_of_mem outer hd))
  have hcl : Closed st (List.range' 0 outer.length) := by
    have := hb.closed hne'
    rw [cornerPairs_length] at this
    refine closed_congr (fun k hk => ?_) (fun k hk => ?_) this
    · exact h5 k (by show k < s1.vs.length; simp at hk; omega)
    · exact h6 k (by show k < s1.vs.length; simp at hk; omega)
  have hlav : st.lavs[0]? = some { head := 0, len := (cornerPairs outer).length } := by
    rw [h7 0 (by show 0 < s1.lavs.length; omega)]
    show s1.lavs[0]? = _
    rw [hb.lavs]; simp [hne']
  obtain ⟨vs, hr, hp, -, -⟩ := hcl.ring (v := 0) (by
    have := List.length_pos_iff.2 hc
    simp; omega)
  have hlist : listLav st 0 = .ok vs := listLav_ok.2 ⟨_, hlav, hr⟩
  have hslav : st.slav = 0 :: t := by rw [h4]; simp [hb.slav]
  unfold mkSlav
  have hfc : fromContours ({ vs := [], lavs := [], slav := [], orig := [] } : St S) (outer :: rest) = .ok st := by
    unfold fromContours
    rw [h1, ok_bind]
    exact h2
  rw [hfc, ok_bind]
  refine (chainLavs_safe h3 h3.slav).bind fun ids hids => ?_
  refine (Safe.mapM (E := LoopErr) (f := origEdgeOf st) (Q := fun _ => True) ids fun i hi => ?_).bind fun oes _ => ?_
  · unfold origEdgeOf
    refine (getV_safe (hids i hi)).bind fun v hv => ?_
    exact (getV_safe (h3.prev i v hv)).bind fun _ _ => trivial
  · refine ⟨⟨h3.prev, h3.next, h3.lav, h3.head, h3.slav⟩, ?_⟩
    intro ids' hids'
    have eIter : ∀ l, iterLav { st with orig := oes } l = iterLav st l := by
      intro l
      have : ∀ h k c vis, walk { st with orig := oes } h k c vis = walk st h k c vis := by
        intro h k
        induction k with
        | zero => intros; rfl
        | succ k ih => intro c vis; unfold walk; simp only [ih]
      unfold iterLav
      simp only [this]
    have hlist' : listLav { st with orig := oes } 0 = .ok vs := by
      rw [← hlist]; unfold listLav; rw [eIter]
    have hids2 : chainLavs { st with orig := oes } (0 :: t) = .ok ids' := by rw [← hslav]; exact hids'
    clear hids'
    rename' hids2 => hids'
    unfold chainLavs at hids'
    rw [hlist', ok_bind] at hids'
    obtain ⟨b, -, hids'⟩ := bind_ok.1 hids'
    cases hids'
    have := hp.length_eq
    simp at this
    rw [List.length_append]
    omega

theorem initialEvents_safe {st : St S} (h : Tidy st) :
    Safe LoopErr (initialEvents st) (fun init => (∃ ids, chainLavs st st.slav = .ok ids ∧ init.length = ids.length) ∧
      ∀ o ∈ init, ∀ e ∈ o, e.within st.vs.length) := by
  unfold initialEvents
  have hc := chainLavs_safe h h.slav
  rcases hx : chainLavs st st.slav with e | ids
  · exact hc.err hx
  · rw [ok_bind]
    have hids := hc.val hx
    exact (Safe.mapM ids fun i hi => nextEvent_safe h (hids i hi)).mono fun r hr => ⟨⟨ids, rfl, hr.1⟩, hr.2⟩

theorem zipIdx_filter_length {α : Type} (l : List α) (m : Nat) (p : Nat → Bool) :
    ((l.zipIdx m).filter (fun q => p q.2)).length = ((List.range' m l.length).filter p).length := by
  have : (List.range' m l.length) = (l.zipIdx m).map Prod.snd := by simp
  rw [this, List.filter_map, List.length_map]
  rfl

/-- four different positions in a list pick four elements -/
theorem four_picked {α : Type} (l : List α) (ds : List Nat) (hn : ds.Nodup) (hl : ∀ d ∈ ds, d < l.length) :
    ds.length ≤ ((l.zipIdx.filter (fun p => ds.contains p.2)).map (·.1)).length := by
  rw [List.length_map, zipIdx_filter_length l 0 (fun i => ds.contains i)]
  refine (List.subperm_of_subset hn ?_).length_le
  intro d hd
  rw [List.mem_filter]
  exact ⟨by simpa using hl d hd, by simpa using hd⟩

theorem dormerEvent_safe {st : St S} {init : List (Option (Event S))}
    {d : List Nat × S} (hi : ∀ o ∈ init, ∀ e ∈ o, e.within st.vs.length) (hn : d.1.Nodup) (h4 : d.1.length = 4)
    (hl : ∀ k ∈ d.1, k < init.length) :
    Safe LoopErr (dormerEvent st init d) (fun o => ∀ e ∈ o, e.within st.vs.length) := by
  unfold dormerEvent
  have hlen := four_picked init d.1 hn hl
  have hsub : ∀ o ∈ (init.zipIdx.filter (fun p => d.1.contains p.2)).map (·.1), o ∈ init := by
    intro o ho
    obtain ⟨q, hq, rfl⟩ := List.mem_map.1 ho
    exact List.fst_mem_of_mem_zipIdx (List.mem_of_mem_filter hq)
  simp only
  generalize (init.zipIdx.filter (fun p => d.1.contains p.2)).map (·.1) = D at hlen hsub
  have hev : ∀ (k : Nat) e, D[k]? = some (some e) → e.within st.vs.length := by
    intro k e hk
    exact hi _ (hsub _ (List.mem_of_getElem? hk)) e rfl
  have hnone : ∀ k : Nat, k < 4 → D[k]? ≠ none := by
    intro k hk hn
    have := List.getElem?_eq_none_iff.1 hn
    omega
  split
  · split
    · rename_i h; exact absurd h (hnone 0 (by omega))
    · rename_i e0 h0
      split
      · rename_i h; exact absurd h (hnone 1 (by omega))
      · rename_i e1 h1
        split
        · rename_i h; exact absurd h (hnone 3 (by omega))
        · rename_i e3 h3
          have w0 := hev 0 _ h0
          have w1 := hev 1 _ h1
          have w3 := hev 3 _ h3
          refine (getV_safe w0).bind fun vp _ => (getV_safe w3).bind fun vn _ => ?_
          rintro e ⟨⟩
          exact ⟨w0, w3, w1.1, w1.2⟩
        · intro e he; cases he
      · intro e he; cases he
    · intro e he; cases he
  · intro e he; cases he

theorem processDormers_safe {st : St S} {init : List (Option (Event S))}
    {ds : List (List Nat × S)} (hi : ∀ o ∈ init, ∀ e ∈ o, e.within st.vs.length)
    (hd : ∀ d ∈ ds, d.1.Nodup ∧ d.1.length = 4 ∧ ∀ k ∈ d.1, k < init.length) :
    Safe LoopErr (processDormers st ds init) (fun r => ∀ o ∈ r, ∀ e ∈ o, e.within st.vs.length) := by
  unfold processDormers
  refine (Safe.mapM (E := LoopErr) (Q := fun p : List Nat × Option (Event S) => ∀ e ∈ p.2, e.within st.vs.length)
    ds fun d hd' => ?_).bind fun evs hevs => ?_
  · obtain ⟨a, b, c⟩ := hd d hd'
    exact (dormerEvent_safe hi a b c).bind fun o ho => ho
  · intro o ho
    rcases List.mem_append.1 ho with ho | ho
    · obtain ⟨q, hq, rfl⟩ := List.mem_map.1 ho
      exact hi _ (List.fst_mem_of_mem_zipIdx (List.mem_of_mem_filter hq))
    · obtain ⟨p, hp, rfl⟩ := List.mem_map.1 (List.mem_of_mem_filter ho)
      exact hevs.2 p hp

theorem mod_add_ne {n s i j : Nat} (hn : 4 ≤ n) (hij : i < j) (hj : j < 4) : (s + i) % n ≠ (s + j) % n := by
  intro h
  have : n ∣ (s + j) - (s + i) := (Nat.modEq_iff_dvd' (by omega)).1 h
  have := Nat.le_of_dvd (by omega) this
  omega

/-- the turns of a dormer are four different corners -/
theorem dormerAt_four {c : List (Edge2 S)} {s : Nat} (h : DormerAt c s) (h' : ¬ DormerAt c (s + 3)) (hc : c ≠ []) :
    4 ≤ c.length := by
  have hpos := List.length_pos_iff.2 hc
  by_contra hlt
  obtain ⟨h0, h1, h2, h3⟩ := h
  have hmod : ∀ i j, i % c.length = j % c.length → RightTurn c i → LeftTurn c j → False := by
    intro i j hij hi hj
    refine not_right_left (i := i) hi ?_
    unfold LeftTurn at hj ⊢
    rwa [cornerCross_mod c hij]
  obtain hl | hl | hl : c.length = 1 ∨ c.length = 2 ∨ c.length = 3 := by omega
  · exact hmod s (s + 1) (by rw [hl, Nat.mod_one, Nat.mod_one]) h0 h1
  · exact hmod s (s + 2) (by rw [hl]; omega) h0 h2
  · refine h' ⟨h3, ?_, ?_, ?_⟩
    · unfold LeftTurn at h1 ⊢
      rwa [cornerCross_mod c (i := s + 3 + 1) (j := s + 1) (by rw [hl]; omega)]
    · unfold LeftTurn at h2 ⊢
      rwa [cornerCross_mod c (i := s + 3 + 2) (j := s + 2) (by rw [hl]; omega)]
    · unfold RightTurn at h3 ⊢
      rwa [cornerCross_mod c (i := s + 3 + 3) (j := s + 3) (by rw [hl]; omega)]

theorem detectDormers_safe {c : List (Edge2 S)} (hs : List (List (Edge2 S))) (hc : c ≠ []) :
    Safe (· = .zeroDivision) (detectDormers (c :: hs)) (fun ds => ∀ d ∈ ds, d.1.Nodup ∧ d.1.length = 4 ∧
      ∀ k ∈ d.1, k < c.length) := by
  have hpos := List.length_pos_iff.2 hc
  obtain ⟨cands, -, h1, h2, h3⟩ := C36_detectDormers c hs hc
  by_cases hA : cands = [] ∨ 4 * cands.length = c.length
  · rw [h2 hA]; intro d hd; cases hd
  · obtain ⟨t, -, h4, h5⟩ := h3 (fun h => hA (.inl h)) (fun h => hA (.inr h))
    by_cases hf : ∃ s ∈ cands, FlatSides c s
    · rw [h4 hf]; rfl
    · obtain ⟨acc, ds, h6, -, h7, h8⟩ := h5 (fun s hs hx => hf ⟨s, hs, hx⟩)
      rw [h6]
      intro d hd
      obtain ⟨s, hsa, h9, -⟩ := forall₂_mem_right h8 hd
      obtain ⟨-, h10, h11, -⟩ := (h1 s).1 ((h7 s).1 hsa).1
      have h12 := dormerAt_four h10 h11 hc
      rw [h9]
      refine ⟨?_, rfl, ?_⟩
      · have n01 := mod_add_ne (s := s) (i := 0) (j := 1) h12 (by omega) (by omega)
        have n02 := mod_add_ne (s := s) (i := 0) (j := 2) h12 (by omega) (by omega)
        have n03 := mod_add_ne (s := s) (i := 0) (j := 3) h12 (by omega) (by omega)
        have n12 := mod_add_ne (s := s) (i := 1) (j := 2) h12 (by omega) (by omega)
        have n13 := mod_add_ne (s := s) (i := 1) (j := 3) h12 (by omega) (by omega)
        have n23 := mod_add_ne (s := s) (i := 2) (j := 3) h12 (by omega) (by omega)
        simp only [Nat.add_zero] at n01 n02 n03
        simp [n01, n02, n03, n12, n13, n23]
      · intro k hk
        simp only [List.mem_cons, List.not_mem_nil, or_false] at hk
        rcases hk with rfl | rfl | rfl | rfl <;> exact Nat.mod_lt _ hpos

/-- the exceptions `skeletonize` may raise -/
def SkelErr (e : PyErr) : Prop := e = .value ∨ e = .zeroDivision ∨ e = .attribute ∨ e = .runtime ∨ e = .typeError

theorem LoopErr.skel {e : PyErr} (h : LoopErr e) : SkelErr e := by
  rcases h with h | h | h | h
  · exact .inl h
  · exact .inr (.inr (.inl h))
  · exact .inr (.inr (.inr (.inl h)))
  · exact .inr (.inr (.inr (.inr h)))

theorem startLoop_safe {outer : List (Edge2 S)} {rest : List (List (Edge2 S))} (hne : ∀ c ∈ outer :: rest, c ≠ []) :
    Safe SkelErr (startLoop (outer :: rest)) (fun lp => Tidy lp.st ∧ ∀ e ∈ lp.queue, e.within lp.st.vs.length) := by
  unfold startLoop
  refine ((mkSlav_safe hne).weaken fun _ h => h.skel).bind fun st hst => ?_
  obtain ⟨ht, hids⟩ := hst
  refine ((detectDormers_safe rest (hne outer (by simp))).weaken fun _ h => .inr (.inl h)).bind fun ds hds => ?_
  refine ((initialEvents_safe ht).weaken fun _ h => h.skel).bind fun init hinit => ?_
  obtain ⟨⟨ids, h1, h2⟩, hin⟩ := hinit
  have hlen := hids ids h1
  have hfin : ∀ r : List (Option (Event S)), (∀ o ∈ r, ∀ e ∈ o, e.within st.vs.length) →
      ∀ e ∈ putAll [] (r.filterMap id), e.within st.vs.length := by
    intro r hr e he
    have := (C08_putAll_perm _ _).mem_iff.1 he
    simp only [List.nil_append, List.mem_filterMap, id] at this
    obtain ⟨o, ho, rfl⟩ := this
    exact hr _ ho e rfl
  simp only
  split
  · exact ⟨ht, hfin init hin⟩
  · have hp : Safe SkelErr (processDormers st ds init) (fun r => ∀ o ∈ r, ∀ e ∈ o, e.within st.vs.length) := by
      refine (processDormers_safe hin fun d hd => ?_).weaken fun _ h => h.skel
      obtain ⟨a, b, c⟩ := hds d hd
      exact ⟨a, b, fun k hk => by have := c k hk; omega⟩
    exact hp.bind fun r hr => ⟨ht, hfin r hr⟩

theorem pyGet_safe {α : Type} {E : PyErr → Prop} {l : List α} {i : Int}
    (h : -(l.length : Int) ≤ i ∧ i < l.length) : Safe E (pyGet l i) (· ∈ l) := by
  unfold pyGet
  generalize hj : (if i < 0 then i + (l.length : Int) else i) = j
  have h0 : 0 ≤ j ∧ j < l.length := by split at hj <;> omega
  simp only
  rw [if_neg (by omega), List.getElem?_eq_getElem (by omega : j.toNat < l.length)]
  exact List.getElem_mem _

theorem Cx.div_safe (a b : Cx S) : Safe (· = PyErr.zeroDivision) (Cx.div a b) (fun _ => True) := by
  unfold Cx.div
  simp only
  split
  · split
    · rfl
    · trivial
  · trivial

theorem fitCircle_safe {points : List (V2 S)} (h : points ≠ []) :
    Safe (· = PyErr.zeroDivision) (fitCircle3Points points) (fun _ => True) := by
  have hpos := List.length_pos_iff.2 h
  unfold fitCircle3Points
  refine (pyGet_safe (by omega)).bind fun p0 _ => ?_
  refine (pyGet_safe (by omega)).bind fun pm _ => ?_
  refine (pyGet_safe (by omega)).bind fun pl _ => ?_
  refine (Cx.div_safe _ _).bind fun w _ => ?_
  refine (Cx.div_safe _ _).bind fun c2 _ => ?_
  exact (Cx.div_safe _ _).bind fun c3 _ => trivial

theorem detectApses_error {c : List (Edge2 S)} (h : c ≠ []) {e : PyErr} (he : detectApses c = .error e) :
    e = .zeroDivision := by
  have hpos := List.length_pos_iff.2 h
  obtain ⟨h1, h2, h3⟩ := C35_detectApses c h
  by_cases hA : ∀ i, i < c.length → lowCorner c i
  · rw [h1 hA] at he; cases he
  by_cases hB : ∀ s e, LowRun c s e → e - s < 6
  · rw [h2 hB] at he; cases he
  push Not at hA hB
  obtain ⟨runs, -, h4, h5⟩ := h3 hA hB
  rw [h5] at he
  have hs : Safe (· = PyErr.zeroDivision)
      (runs.mapM (fun p => (fitCircle3Points (runPoints c p.1 p.2)).map (·.1))) (fun _ => True) := by
    refine (Safe.mapM (Q := fun _ => True) runs fun p hp => ?_).mono fun _ _ => trivial
    obtain ⟨-, h6, -⟩ := (h4 p).1 hp
    have hne : runPoints c p.1 p.2 ≠ [] := by
      intro hn
      unfold runPoints at hn
      rw [List.filterMap_eq_nil_iff] at hn
      have := hn 0 (by simp; omega)
      rw [List.getElem?_eq_getElem (Nat.mod_lt _ hpos)] at this
      cases this
    have := fitCircle_safe hne
    cases hx : fitCircle3Points (runPoints c p.1 p.2) with
    | ok a => trivial
    | error e => exact this.err hx
  cases hx : runs.mapM (fun p => (fitCircle3Points (runPoints c p.1 p.2)).map (·.1)) with
  | ok a => rw [hx] at he; cases he
  | error e' => rw [hx] at he; cases he; exact hs.err hx

theorem finish_error {outer : List (Edge2 S)} {rest : List (List (Edge2 S))} (h : outer ≠ [])
    {sk : List (Subtree S)} {e : PyErr} (he : finish (outer :: rest) sk = .error e) :
    e = .value ∨ e = .zeroDivision := by
  unfold finish at he
  rcases bind_error.1 he with he | ⟨out, -, he⟩
  · rcases C30_mergeNodeClusters sk (outer :: rest) with ⟨_, _, _, _, -, h1, -⟩ | ⟨h1, -⟩ | ⟨o, r, e', h1, h2, h3⟩
    · rw [h1] at he; cases he
    · cases h1
    · cases h1
      rw [h2] at he
      cases he
      rcases h3 with h3 | ⟨h3, -⟩
      · exact .inr (detectApses_error h h3)
      · exact .inr h3
  · rcases C33_removeGhosts out with ⟨e', h1, h2⟩ | ⟨_, h1, -⟩
    · rw [h1] at he; cases he
      rcases h2 with h2 | ⟨h2, -⟩
      · exact .inl h2
      · exact .inr h2
    · rw [h1] at he; cases he

/-- the exceptions of `skeletonize` -/
theorem skeletonize_error {outer : List (Edge2 S)} {rest : List (List (Edge2 S))}
    (hne : ∀ c ∈ outer :: rest, c ≠ []) {fuel : Nat} {e : PyErr}
    (he : skeletonize fuel (outer :: rest) = some (.error e)) : SkelErr e := by
  unfold skeletonize at he
  have hs := startLoop_safe hne
  split at he
  · rename_i e' h1
    cases he
    exact hs.err h1
  · rename_i lp h1
    obtain ⟨t, hq⟩ := hs.val h1
    split at he
    · cases he
    · rename_i e' h2
      cases he
      exact (mainLoop_safe t hq h2).skel
    · simp only [Option.some.injEq] at he
      rcases finish_error (hne outer (by simp)) he with h | h
      · exact .inl h
      · exact .inr (.inl h)

end Polyskel
