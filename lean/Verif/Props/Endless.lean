import Verif.Props.SpikeSteps
import Verif.Props.FirstEdge
/-
C73: when the removal of spikes reports an endless loop, bpypolyskel.py:1128-1129.
-/
namespace Polyskel
open Scalar Graph
variable {S : Type} [Scalar S]

theorem bind_not_error {α β : Type} {er : PyErr} {x : Except PyErr α} {f : α → Except PyErr β}
    (h1 : x ≠ .error er) (h2 : ∀ a, x = .ok a → f a ≠ .error er) : (x >>= f) ≠ .error er := by
  intro h
  rcases bind_error.1 h with h | ⟨a, ha, h⟩
  · exact h1 h
  · exact h2 a ha h

theorem pyGet_not_endless {α : Type} (l : List α) (i : Int) : pyGet l i ≠ .error .endlessSpike := by
  unfold pyGet
  generalize (if i < 0 then i + (l.length : Int) else i) = j
  simp only
  split
  · simp
  · split <;> simp

theorem pyRemove_not_endless {α : Type} [DecidableEq α] (l : List α) (a : α) :
    pyRemove l a ≠ .error .endlessSpike := by
  unfold pyRemove; split <;> simp

theorem lastFaceWith_not_endless (p n : Int) (i : Nat) (r : Option Nat) (fs : List (List Int)) :
    lastFaceWith p n i r fs ≠ .error .endlessSpike := by
  induction fs generalizing i r with
  | nil => simp [lastFaceWith]
  | cons f fs ih =>
    unfold lastFaceWith
    refine bind_not_error ?_ fun b _ => ih _ _
    unfold hasDart
    refine bind_not_error ?_ fun _ _ => by simp
    unfold iterPrevNext; split <;> simp

theorem findSpike_not_endless (verts : List (V3 S)) (ts : List (Int × Int × Int)) :
    findSpike verts ts ≠ .error .endlessSpike := by
  induction ts with
  | nil => simp [findSpike]
  | cons t ts ih =>
    unfold findSpike
    refine bind_not_error ?_ fun b _ => ?_
    · unfold isSpike
      refine bind_not_error (pyGet_not_endless _ _) fun _ _ => ?_
      refine bind_not_error (pyGet_not_endless _ _) fun _ _ => ?_
      refine bind_not_error (pyGet_not_endless _ _) fun _ _ => ?_
      simp only
      split
      · simp
      · refine bind_not_error ?_ fun _ _ => by simp
        unfold pydiv; split <;> simp
    · cases b
      · exact ih
      · simp

theorem rotateTo_not_endless (f : List Int) (y : Int) : rotateTo f y ≠ .error .endlessSpike := by
  unfold rotateTo; split <;> simp

theorem rotateMerged_not_endless (n : Nat) (f : List Int) :
    rotateMerged n f ≠ .error .endlessSpike := by
  unfold rotateMerged; split <;> simp

theorem removeSpike_endless {n : Nat} {faces : List (List Int)} {fi : Nat} {p t x : Int}
    (h : removeSpike n faces fi p t x = .error .endlessSpike) :
    ∃ ri li face right left R L, ri ≠ li ∧ lastFaceWith t p 0 none faces = .ok (some ri) ∧
      lastFaceWith x t 0 none faces = .ok (some li) ∧ faces[fi]? = some face ∧
      faces[ri]? = some right ∧ faces[li]? = some left ∧ rotateTo right p = .ok R ∧
      rotateTo left t = .ok L ∧ rotateMerged n (R ++ L.drop 1) = .ok face := by
  unfold removeSpike at h
  rcases bind_error.1 h with h | ⟨r, hr, h⟩
  · exact absurd h (lastFaceWith_not_endless _ _ _ _ _)
  rcases bind_error.1 h with h | ⟨l, hl, h⟩
  · exact absurd h (lastFaceWith_not_endless _ _ _ _ _)
  cases r with
  | none => simp at h
  | some ri =>
  cases l with
  | none => simp at h
  | some li =>
    simp only at h
    split at h
    · rcases bind_error.1 h with h | ⟨_, _, h⟩
      · exact absurd h (pyGet_not_endless _ _)
      rcases bind_error.1 h with h | ⟨_, _, h⟩
      · exact absurd h (pyRemove_not_endless _ _)
      rcases bind_error.1 h with h | ⟨_, _, h⟩
      · exact absurd h (pyRemove_not_endless _ _)
      rcases bind_error.1 h with h | ⟨_, _, h⟩
      · exact absurd h (pyGet_not_endless _ _)
      simp at h
    · rename_i hne
      rcases bind_error.1 h with h | ⟨face, hf, h⟩
      · exact absurd h (pyGet_not_endless _ _)
      rcases bind_error.1 h with h | ⟨right, hri, h⟩
      · exact absurd h (pyGet_not_endless _ _)
      rcases bind_error.1 h with h | ⟨R, hR, h⟩
      · exact absurd h (rotateTo_not_endless _ _)
      rcases bind_error.1 h with h | ⟨left, hle, h⟩
      · exact absurd h (pyGet_not_endless _ _)
      rcases bind_error.1 h with h | ⟨L, hL, h⟩
      · exact absurd h (rotateTo_not_endless _ _)
      rcases bind_error.1 h with h | ⟨m, hm, h⟩
      · exact absurd h (rotateMerged_not_endless _ _)
      split at h
      · rename_i he
        subst he
        exact ⟨ri, li, m, right, left, R, L, hne, hr, hl, pyGet_nat_ok.1 hf, pyGet_nat_ok.1 hri,
          pyGet_nat_ok.1 hle, hR, hL, hm⟩
      · rcases bind_error.1 h with h | ⟨_, _, h⟩
        · exact absurd h (pyRemove_not_endless _ _)
        · simp at h

theorem lastFaceWith_eq {p n : Int} {fs : List (List Int)} (hne : [] ∉ fs) {k : Nat} {f : List Int}
    (hf : fs[k]? = some f) (hs : HasStep f p n)
    (hlast : ∀ m g, k < m → fs[m]? = some g → ¬ HasStep g p n) :
    lastFaceWith p n 0 none fs = .ok (some k) := by
  have tot : ∀ (fs : List (List Int)) (i : Nat) (r : Option Nat), [] ∉ fs →
      ∃ o, lastFaceWith p n i r fs = .ok o := by
    intro fs
    induction fs with
    | nil => intro i r _; exact ⟨r, rfl⟩
    | cons g fs ih =>
      intro i r h
      have hg : g ≠ [] := fun h' => h (by simp [h'])
      obtain ⟨l, hl, -⟩ := C06_iterPrevNext g hg
      obtain ⟨o, ho⟩ := ih (i + 1) (if l.contains (p, n) then some i else r)
        (fun h' => h (by simp [h']))
      exact ⟨o, by unfold lastFaceWith hasDart; rw [hl]; exact ho⟩
  obtain ⟨o, ho⟩ := tot fs 0 none hne
  rw [ho]
  rcases lastFaceWith_ok ho with ⟨h1, -⟩ | ⟨k', g, h1, h2, h3, h4⟩
  · exact absurd hs (h1 f (List.mem_of_getElem? hf))
  · rw [h3, Nat.zero_add]
    rcases Nat.lt_trichotomy k k' with h | h | h
    · exact absurd h2 (hlast k' g h h1)
    · rw [h]
    · exact absurd hs (h4 k f h hf)

theorem rotateTo_split {A B : List Int} {x : Int} (h : x ∉ A) :
    rotateTo (A ++ x :: B) x = .ok (x :: B ++ A) := by
  unfold rotateTo
  have : (A ++ x :: B).idxOf? x = some A.length := by
    rw [List.idxOf?_eq_some_iff]
    refine ⟨by simp, by simp, ?_⟩
    intro j hj
    rw [List.getElem_append_left hj]
    intro he
    exact h (he ▸ List.getElem_mem hj)
  rw [this]
  simp

/-- C73: let `right` be the last face that passes from the tip `t` back to `p`, and `left`, another one,
the last face that passes from `x` to `t`.  The removal of the spike `p, t, x` of `face` raises the exception
"Endless loop" exactly if the two faces, joined at the tip and turned so that the first vertex of the
polygon (of those at a position below `n`) comes first, give `face`. -/
theorem C73_raises_iff (n : Nat) (faces : List (List Int)) (hne : [] ∉ faces) (fi ri li : Nat)
    (p t x : Int) (face A B C D : List Int) (hrl : ri ≠ li) (hface : faces[fi]? = some face)
    (hright : faces[ri]? = some (A ++ p :: B)) (hA : p ∉ A) (hrs : HasStep (A ++ p :: B) t p)
    (hrl' : ∀ m g, ri < m → faces[m]? = some g → ¬ HasStep g t p)
    (hleft : faces[li]? = some (C ++ t :: D)) (hC : t ∉ C) (hls : HasStep (C ++ t :: D) x t)
    (hll' : ∀ m g, li < m → faces[m]? = some g → ¬ HasStep g x t)
    (k : Nat) (hk : k < n) (v : Int) (hv : (p :: B ++ A ++ D ++ C)[k]? = some v) (hvn : v < n)
    (hmin : ∀ j w, j < k → (p :: B ++ A ++ D ++ C)[j]? = some w → (n : Int) ≤ w) :
    removeSpike n faces fi p t x = .error .endlessSpike ↔
      (p :: B ++ A ++ D ++ C).drop k ++ (p :: B ++ A ++ D ++ C).take k = face := by
  have h1 := lastFaceWith_eq hne hright hrs hrl'
  have h2 := lastFaceWith_eq hne hleft hls hll'
  have h3 := rotateTo_split (B := B) hA
  have h4 := rotateTo_split (B := D) hC
  have hM : p :: B ++ A ++ (t :: D ++ C).drop 1 = p :: B ++ A ++ D ++ C := by simp
  have h5 : rotateMerged n (p :: B ++ A ++ D ++ C) = .ok
      ((p :: B ++ A ++ D ++ C).drop k ++ (p :: B ++ A ++ D ++ C).take k) := by
    unfold rotateMerged
    have : (p :: B ++ A ++ D ++ C).zipIdx.findIdx?
        (fun q => decide (q.2 < n) && decide (q.1 < (n : Int))) = some k := by
      generalize (p :: B ++ A ++ D ++ C) = M at *
      have hkl := (List.getElem?_eq_some_iff.1 hv).1
      rw [List.findIdx?_eq_some_iff_getElem]
      refine ⟨by simpa using hkl, ?_, ?_⟩
      · have := (List.getElem?_eq_some_iff.1 hv).2
        simp [hk, this, hvn]
      · intro j hj
        have := hmin j M[j] hj (List.getElem?_eq_getElem (by omega))
        simp
        intro _
        exact this
    rw [this]
  constructor
  · intro h
    obtain ⟨ri', li', face', right, left, R, L, -, g1, g2, g3, g4, g5, g6, g7, g8⟩ :=
      removeSpike_endless h
    rw [h1] at g1; cases g1
    rw [h2] at g2; cases g2
    rw [hface] at g3; cases g3
    rw [hright] at g4; cases g4
    rw [hleft] at g5; cases g5
    rw [h3] at g6; cases g6
    rw [h4] at g7; cases g7
    rw [hM, h5] at g8
    cases g8; rfl
  · intro h
    unfold removeSpike
    rw [h1, ok_bind, h2, ok_bind]
    simp only [if_neg hrl]
    rw [pyGet_nat_ok.2 hface, ok_bind, pyGet_nat_ok.2 hright, ok_bind, h3, ok_bind,
      pyGet_nat_ok.2 hleft, ok_bind, h4, ok_bind, hM, h5, ok_bind, if_pos h]

theorem hasStep_of_openSteps {f : List Int} {d : Int × Int} (h : d ∈ openSteps f) : d ∈ steps f := by
  cases f with
  | nil => simp [openSteps] at h
  | cons a l =>
    obtain ⟨z, hz⟩ : ∃ z, (a :: l).getLast? = some z := ⟨_, List.getLast?_eq_some_getLast (by simp)⟩
    rw [steps_cons a l z hz]
    simp [h]

theorem openSteps_mem_append {f g : List Int} {d : Int × Int} (h : d ∈ openSteps f) :
    d ∈ openSteps (f ++ g) := by
  cases f with
  | nil => simp [openSteps] at h
  | cons a l =>
    obtain ⟨z, hz⟩ : ∃ z, (a :: l).getLast? = some z := ⟨_, List.getLast?_eq_some_getLast (by simp)⟩
    rw [openSteps_append _ z g hz]
    simp [h]

/-- C73: as long as no directed edge occurs twice in the faces, removing a spike does not raise the
exception "Endless loop". -/
theorem C73_distinct (n : Nat) (faces : List (List Int)) (fi : Nat) (p t x : Int) (hpt : p ≠ t)
    (hxt : x ≠ t) (hd : (faces.flatMap (fun f => f.zip (f.rotate 1))).Nodup) :
    removeSpike n faces fi p t x ≠ .error .endlessSpike := by
  intro h
  obtain ⟨ri, li, face, right, left, R, L, hrl, h1, h2, h3, h4, h5, h6, h7, h8⟩ :=
    removeSpike_endless h
  have len2 : ∀ {f : List Int} {y z : Int}, HasStep f y z → y ≠ z → 2 ≤ f.length := by
    intro f y z hs hyz
    obtain ⟨m1, m2⟩ := hs.mem
    match f, m1, m2 with
    | [a], m1, m2 => simp at m1 m2; exact absurd (m1.trans m2.symm) hyz
    | a :: b :: l, _, _ => simp
  have hsr : HasStep right t p := by
    rcases lastFaceWith_ok h1 with ⟨-, h⟩ | ⟨k, g, g1, g2, g3, -⟩
    · cases h
    · simp only [Option.some.injEq, Nat.zero_add] at g3
      subst g3; rw [h4] at g1; cases g1; exact g2
  have hsl : HasStep left x t := by
    rcases lastFaceWith_ok h2 with ⟨-, h⟩ | ⟨k, g, g1, g2, g3, -⟩
    · cases h
    · simp only [Option.some.injEq, Nat.zero_add] at g3
      subst g3; rw [h5] at g1; cases g1; exact g2
  have lr := len2 hsr hpt.symm
  have ll := len2 hsl hxt
  obtain ⟨pR, hR, kR, hkR, eR⟩ := rotateTo_ok h6
  obtain ⟨pL, hL, -⟩ := rotateTo_ok h7
  obtain ⟨pm, km, hkm, em⟩ := rotateMerged_ok h8
  have hlen : face.length = right.length + left.length - 1 := by
    have e1 := pm.length_eq
    have e2 := pR.length_eq
    have e3 := pL.length_eq
    simp only [List.length_append, List.length_drop] at e1
    omega
  have hfr : fi ≠ ri := by
    rintro rfl
    rw [h3] at h4; cases h4; omega
  -- the first step of the right face, as it enters the merged face
  obtain ⟨q, R', hRq⟩ : ∃ q R', R = p :: q :: R' := by
    have hRl : 2 ≤ R.length := by rw [pR.length_eq]; exact lr
    match R, hR, hRl with
    | a :: b :: l, hR, _ => simp at hR; exact ⟨b, l, by rw [hR]⟩
  have ho : (p, q) ∈ openSteps R := by rw [hRq]; simp [openSteps]
  have hr : (p, q) ∈ steps right := by
    have := hasStep_of_openSteps ho
    rw [eR] at this
    exact (steps_rot hkR).mem_iff.1 this
  have hf : (p, q) ∈ steps face := by
    rw [em]
    exact (steps_rot hkm).mem_iff.2 (hasStep_of_openSteps (openSteps_mem_append ho))
  have hd' := List.nodup_flatMap.1 hd
  have hp := List.pairwise_iff_getElem.1 hd'.2
  obtain ⟨l1, e1⟩ := List.getElem?_eq_some_iff.1 h3
  obtain ⟨l2, e2⟩ := List.getElem?_eq_some_iff.1 h4
  rcases Nat.lt_or_gt_of_ne hfr with hlt | hlt
  · exact hp fi ri l1 l2 hlt (a := (p, q)) (by rw [e1]; exact hf) (by rw [e2]; exact hr)
  · exact hp ri fi l2 l1 hlt (a := (p, q)) (by rw [e2]; exact hr) (by rw [e1]; exact hf)

/-- C73, the following spikes: the directed edges stay distinct when a spike is removed, unless the edge that
closes the gap was there already. -/
theorem C73_stays (n : Nat) (faces faces' : List (List Int)) (fi ri li : Nat)
    (p t x : Int) (face right left : List Int)
    (h : removeSpike n faces fi p t x = .ok (some faces'))
    (hface : faces[fi]? = some face) (htri : ∃ i, TripleAt face i p t x)
    (hright : faces[ri]? = some right) (hrs : HasStep right t p)
    (hru : ∀ j g, faces[j]? = some g → HasStep g t p → j = ri)
    (hleft : faces[li]? = some left) (hls : HasStep left x t)
    (hlu : ∀ j g, faces[j]? = some g → HasStep g x t → j = li)
    (hrl : ri ≠ li) (hfr : fi ≠ ri) (hfl : fi ≠ li)
    (hcf : face.count t = 1) (hcr : right.count p = 1) (hcl : left.count t = 1) (hxt : x ≠ t)
    (hpt : p ≠ t) (hpx : p ≠ x)
    (hd : (faces.flatMap (fun f => f.zip (f.rotate 1))).Nodup)
    (hnew : ∀ g ∈ faces, ¬ HasStep g p x ∧ ¬ HasStep g x p) :
    (faces'.flatMap (fun f => f.zip (f.rotate 1))).Nodup := by
  have hp := C51_spike_merge_steps n faces faces' fi ri li p t x face right left h hface htri hright
    hrs hru hleft hls hlu hrl hfr hfl hcf hcr hcl hxt hpt
  have hn : ([(p, x), (x, p)] ++ faces.flatMap steps).Nodup := by
    rw [List.nodup_append]
    refine ⟨by simp [hpx], hd, ?_⟩
    intro a ha b hb hab
    subst hab
    obtain ⟨g, hg, hb⟩ := List.mem_flatMap.1 hb
    simp only [List.mem_cons, List.not_mem_nil, or_false] at ha
    rcases ha with rfl | rfl
    · exact (hnew g hg).1 (mem_steps_iff.1 hb)
    · exact (hnew g hg).2 (mem_steps_iff.1 hb)
  exact (List.nodup_append.1 (hp.nodup_iff.2 hn)).2.1

theorem spikePass_not_endless {verts : List (V3 S)} {n : Nat} {faces : List (List Int)}
    (hd : (faces.flatMap (fun f => f.zip (f.rotate 1))).Nodup)
    (hl : ∀ f ∈ faces, ∀ v, ¬ HasStep f v v) (fi : Nat) (rest : List (List Int))
    (hrest : ∀ f ∈ rest, f ∈ faces) : spikePass verts n faces fi rest ≠ .error .endlessSpike := by
  induction rest generalizing fi with
  | nil => simp [spikePass]
  | cons face rest ih =>
    have ih := fun fi => ih fi (fun f hf => hrest f (by simp [hf]))
    unfold spikePass
    split
    · exact ih _
    · refine bind_not_error (by unfold iterPrevThisNext; split <;> simp) fun ts hts => ?_
      refine bind_not_error (findSpike_not_endless _ _) fun o ho => ?_
      cases o with
      | none => exact ih _
      | some q =>
        obtain ⟨p, t, x⟩ := q
        obtain ⟨i, g1, g2, g3⟩ := (mem_triples hts p t x).1 (findSpike_some ho).1
        have hx : t ≠ x := by
          rintro rfl
          exact hl face (hrest face (by simp)) t ⟨i, g2, g3⟩
        have hp : p ≠ t := by
          rintro rfl
          have hi := (List.getElem?_eq_some_iff.1 g2).1
          refine hl face (hrest face (by simp)) p ⟨(i + face.length - 1) % face.length, g1, ?_⟩
          have : ((i + face.length - 1) % face.length + 1) % face.length = i := by
            rw [Nat.mod_add_mod]
            have : i + face.length - 1 + 1 = i + face.length := by omega
            rw [this, Nat.add_mod_right, Nat.mod_eq_of_lt hi]
          rw [this]; exact g2
        refine bind_not_error (C73_distinct _ _ _ _ _ _ hp hx.symm hd) fun o _ => ?_
        cases o with
        | none => exact ih _
        | some f => simp

/-- C73 for the graph that `polygonize` builds: if no edge occurs twice in the graph, the search for the
first spike in the traced faces and its removal do not raise the exception "Endless loop", whatever the
coordinates.  Missing: the spikes that are removed after the first one, because the edge which closes the
gap left by a spike might be there already. -/
theorem C73_first_partial (rt : Rt) (a : PolyArgs S) (edges : List (Edge2 S))
    (sk : List (Subtree S)) (V : List (V3 S)) (ds : List Dart) (emb : Graph) (out : List (List Int))
    (hds : graphDarts a edges sk = .ok ds) (hsimple : ∀ v w, ds.countP (Joins v w) ≤ 1)
    (hemb : circularEmbedding rt (addEdges rt [] ds) V = .ok emb)
    (hout : Graph.faces rt (addEdges rt [] ds) emb a.verts.length = .ok out) (V' : List (V3 S))
    (n : Nat) : spikePass V' n out 0 out ≠ .error .endlessSpike := by
  obtain ⟨h1, -, -, h4⟩ := C42_closed rt a edges sk V ds emb out hds hsimple hemb hout
  refine spikePass_not_endless (List.nodup_iff_count_le_one.2 h1) ?_ 0 out (fun f hf => hf)
  intro f hf v hs
  exact (h4 (v, v) (List.mem_flatMap.2 ⟨f, hf, mem_steps_iff.2 hs⟩)).1 rfl

/-- case of `C73_raises_iff`: the faces beside the spike 2, 3, 4 give, when joined, the face with the spike;
the directed edges 2→3, 3→4, 4→0, 0→3 then occur twice -/
example : removeSpike 5 [[2, 3, 4, 0, 3, 1, 4], [2, 3, 4, 0, 3], [3, 1, 4]] 0 2 3 4 =
    .error .endlessSpike := by
  refine (C73_raises_iff 5 _ (by decide) 0 1 2 2 3 4 [2, 3, 4, 0, 3, 1, 4] [] [3, 4, 0, 3] [] [1, 4]
    (by decide) rfl rfl (by decide) ⟨4, by decide⟩ ?_ rfl (by decide) ⟨2, by decide⟩ ?_ 0 (by decide) 2
    rfl (by decide) (by intro j w hj; omega)).2 rfl
  · intro m g hm hg
    obtain rfl : m = 2 := by
      have := (List.getElem?_eq_some_iff.1 hg).1
      simp at this; omega
    simp at hg; subst hg
    rintro ⟨i, h1, h2⟩
    exact no_step (f := [3, 1, 4]) (x := 3) (y := 2) (by decide) i h1 h2
  · intro m g hm hg
    have := (List.getElem?_eq_some_iff.1 hg).1
    simp at this; omega

/-- case of `C73_distinct` and of the model: the gap of `C51` -/
example : removeSpike 4 [[0, 4, 5, 6, 3], [0, 1, 5, 4], [1, 2, 3, 6, 5]] 0 4 5 6 ≠
    .error .endlessSpike :=
  C73_distinct 4 _ 0 4 5 6 (by decide) (by decide) (by decide)

/-- the edge 4–6 that closes the gap is new, and the directed edges stay distinct -/
example : ([[0, 4, 5, 6, 3], [0, 1, 5, 4], [1, 2, 3, 6, 5]].all (fun f =>
      !(f.zip (f.rotate 1)).contains (4, 6) && !(f.zip (f.rotate 1)).contains (6, 4))) = true ∧
    ([[0, 4, 6, 3], [0, 1, 5, 1, 2, 3, 6, 4]].flatMap (fun f => f.zip (f.rotate 1)) :
      List (Int × Int)).Nodup := by decide

end Polyskel
