import Verif.Props.Ghosts
import Verif.Props.Merge
import Verif.Props.Wavefront
import Verif.Props.Cleanup
import Verif.Props.Spikes
import Verif.Props.Moves
import Verif.Spec.SoftExact
import Verif.Spec.Samples
/-
C17: the skeleton is closed.  C18: all face indices are valid.
-/
namespace Polyskel
open Scalar

section
variable {S : Type} [Scalar S]

/-- every sink of every node is in `P` or a node -/
def ClosedIn (P : V2 S → Prop) (sk : List (Subtree S)) : Prop :=
  ∀ a ∈ sk, ∀ s ∈ a.sinks, P s ∨ ∃ b ∈ sk, b.source = s

theorem ClosedIn.mergeSame {P : V2 S → Prop} (h : ExactEq S) {sk : List (Subtree S)}
    (hc : ClosedIn P sk) : ClosedIn P (mergeSame [] sk) := by
  obtain ⟨-, hcov, hk⟩ := C30_mergeSame h sk
  intro a ha s hs
  obtain ⟨x, hx, -, hs⟩ := ((hk a ha).2 s).1 hs
  rcases hc x hx s hs with h | ⟨b, hb, rfl⟩
  · exact .inl h
  · exact .inr (hcov b hb)

/-- a group of near nodes contains all nodes with the position of one of its nodes -/
theorem cluster_sources {sk : List (Subtree S)} {cv : List (V2 S)} {outer : List (Edge2 S)} {t : S}
    (hself : ∀ p : V2 S, ((abs (p.x -. p.x) +. abs (p.y -. p.y)) <. t) = true)
    {cls : List (List Nat)} (hf : findClusters sk cv outer t = .ok cls) {g : List Nat} (hg : g ∈ cls)
    {c c' : Nat} {x y : Subtree S} (hc : c ∈ g) (hx : sk[c]? = some x) (hy : sk[c']? = some y)
    (hxy : x.source = y.source) : c' ∈ g := by
  rcases C32_groups sk cv outer t with ⟨e, _, he⟩ | ⟨apses, groups, hap, hgr, hr⟩
  · rw [hf] at he; cases he
  rw [hf] at hr; cases hr
  have hgm := (List.mem_filter.1 hg).1
  have hc'l : c' < sk.length := (List.getElem?_eq_some_iff.1 hy).1
  have hc'm : c' ∈ groups.flatten := hgr.perm.mem_iff.2 (List.mem_range.2 hc'l)
  obtain ⟨g', hg'm, hc'⟩ := List.mem_flatten.1 hc'm
  -- two groups with nodes at the same position are the same
  have key : ∀ (d d' : Nat) (u w : Subtree S) (h h' : List Nat), sk[d]? = some u → sk[d']? = some w →
      u.source = w.source → h ∈ groups → d ∈ h → d' ∈ h' →
      ¬ (∀ c0, h.head? = some c0 → ∀ c ∈ h', c0 < c ∧ ¬ NearIn sk t c0 c) := by
    intro d d' u w h h' hu hw huw hh hd hd' hlater
    obtain ⟨c0, l, rfl, -, hnear⟩ := hgr.shape h hh
    refine (hlater c0 rfl d' hd').2 ?_
    rcases List.mem_cons.1 hd with rfl | hd
    · exact ⟨u, w, hu, hw, by rw [huw]; exact hself _⟩
    · obtain ⟨u0, u', h1, h2, h3⟩ := hnear d hd
      rw [hu] at h2; cases h2
      exact ⟨u0, w, h1, hw, by rw [← huw]; exact h3⟩
  by_cases hgg : g = g'
  · rw [hgg]; exact hc'
  · exfalso
    obtain ⟨i, hi⟩ := List.mem_iff_getElem?.1 hgm
    obtain ⟨j, hj⟩ := List.mem_iff_getElem?.1 hg'm
    obtain ⟨li, hi'⟩ := List.getElem?_eq_some_iff.1 hi
    obtain ⟨lj, hj'⟩ := List.getElem?_eq_some_iff.1 hj
    have hpw := List.pairwise_iff_getElem.1 hgr.later
    rcases Nat.lt_trichotomy i j with hij | hij | hij
    · have := hpw i j li lj hij
      rw [hi', hj'] at this
      exact key c c' x y g g' hx hy hxy hgm hc hc' this
    · subst hij; exact hgg (hi'.symm.trans hj')
    · have := hpw j i lj li hij
      rw [hi', hj'] at this
      exact key c' c y x g' g hy hx hxy.symm hg'm hc' hc this

/-- the sinks of a redirected node -/
theorem Redirected.sink {merged : List (V2 S)} {new : V2 S} {a b : Subtree S}
    (h : Redirected merged new a b) (hsrc : a.source ∉ merged) {p : V2 S} (hp : p ∈ b.sinks) :
    p = new ∨ (p ∈ a.sinks ∧ p ∉ merged) := by
  obtain ⟨_, _, _, h⟩ := h
  obtain ⟨h1, h2, h3⟩ := h hsrc
  by_cases hcon : ∃ s ∈ a.sinks, s ∈ merged
  · by_cases hin : new ∈ a.sinks
    · obtain ⟨keep, hk, hb⟩ := h2 hin
      rw [hb, List.mem_filter, hk] at hp
      exact .inr hp
    · obtain ⟨A, m, B, e, hA, hm⟩ := first_mem hcon
      obtain ⟨keep, hk, hb⟩ := h3 hin A m B e hA hm
      rw [hb] at hp
      simp only [List.mem_append, List.mem_cons, List.mem_filter, hk] at hp
      rcases hp with hp | rfl | hp
      · exact .inr ⟨by rw [e]; simp [hp], hA p hp⟩
      · exact .inl rfl
      · exact .inr ⟨by rw [e]; simp [hp.1], hp.2⟩
  · have hcon' : ∀ s ∈ a.sinks, s ∉ merged := fun s hs hm => hcon ⟨s, hs, hm⟩
    rw [h1 hcon'] at hp
    exact .inr ⟨hp, hcon' p hp⟩

theorem mem_outside {sk : List (Subtree S)} {cluster : List Nat} {a : Subtree S} :
    a ∈ (sk.zipIdx.filter (fun p => p.2 ∉ cluster)).map (·.1) ↔
      ∃ i, sk[i]? = some a ∧ i ∉ cluster := by
  simp only [List.mem_map, List.mem_filter, decide_eq_true_eq, Prod.exists]
  constructor
  · rintro ⟨x, i, ⟨h1, h2⟩, rfl⟩
    exact ⟨i, by simpa [List.mem_zipIdx_iff_getElem?] using h1, h2⟩
  · rintro ⟨i, h1, h2⟩
    exact ⟨a, i, ⟨by simpa [List.mem_zipIdx_iff_getElem?] using h1, h2⟩, rfl⟩

theorem ClosedIn.mergeCluster {P : V2 S → Prop} (h : ExactEq S) {sk out : List (Subtree S)}
    {cluster : List Nat} (hc : ClosedIn P sk) (ho : mergeCluster sk cluster = .ok out)
    (hcl : ∀ (c c' : Nat) (x y : Subtree S), c ∈ cluster → sk[c]? = some x → sk[c']? = some y →
      x.source = y.source → c' ∈ cluster) : ClosedIn P out := by
  obtain ⟨nodes, kept, new, hn, rfl, -, -, -, -, hns, hkept⟩ := mergeCluster_ok h ho
  -- nodes outside the cluster are not at a merged position
  have hout : ∀ a i, sk[i]? = some a → i ∉ cluster → a.source ∉ nodes.map (·.source) := by
    intro a i hi hni hm
    obtain ⟨x, hx, hxs⟩ := List.mem_map.1 hm
    obtain ⟨c, hcm, hcx⟩ := forall₂_mem_right hn hx
    exact hni (hcl c i x a hcm hcx hi hxs)
  have hcluster : ∀ a i, sk[i]? = some a → i ∈ cluster → a.source ∈ nodes.map (·.source) := by
    intro a i hi hic
    obtain ⟨x, hx, hxs⟩ := forall₂_mem_left hn hic
    rw [hi] at hxs; cases hxs
    exact List.mem_map.2 ⟨a, hx, rfl⟩
  have hsurv : ∀ p, p ∉ nodes.map (·.source) → (∃ b ∈ sk, b.source = p) →
      ∃ b ∈ kept ++ [new], b.source = p := by
    rintro p hp ⟨b, hb, rfl⟩
    obtain ⟨i, hi⟩ := List.mem_iff_getElem?.1 hb
    have hni : i ∉ cluster := fun hic => hp (hcluster b i hi hic)
    obtain ⟨b', hb', hr⟩ := forall₂_mem_left hkept (mem_outside.2 ⟨i, hi, hni⟩)
    exact ⟨b', by simp [hb'], hr.1⟩
  intro a ha s hs
  rcases List.mem_append.1 ha with ha | ha
  · obtain ⟨a0, ha0, hr⟩ := forall₂_mem_right hkept ha
    obtain ⟨i, hi, hni⟩ := mem_outside.1 ha0
    rcases hr.sink (hout a0 i hi hni) hs with rfl | ⟨h1, h2⟩
    · exact .inr ⟨new, by simp, rfl⟩
    · rcases hc a0 (List.mem_of_getElem? hi) s h1 with h | h
      · exact .inl h
      · exact .inr (hsurv s h2 h)
  · simp only [List.mem_singleton] at ha; subst ha
    obtain ⟨⟨x, hx, hxs⟩, h2⟩ := (hns s).1 hs
    obtain ⟨c, -, hcx⟩ := forall₂_mem_right hn hx
    rcases hc x (List.mem_of_getElem? hcx) s hxs with h | h
    · exact .inl h
    · exact .inr (hsurv s h2 h)

theorem ClosedIn.merges {P : V2 S → Prop} (h : ExactEq S)
    (hself : ∀ p : V2 S, ((abs (p.x -. p.x) +. abs (p.y -. p.y)) <. lit 1 10) = true)
    {cv : List (V2 S)} {outer : List (Edge2 S)} {k : Nat} {sk out : List (Subtree S)}
    (hm : Merges cv outer k sk out) (hc : ClosedIn P sk) : ClosedIn P out := by
  induction hm with
  | done => exact hc
  | step hf hcm _ ho _ ih =>
    exact ih (hc.mergeCluster h ho (fun c c' x y h1 h2 h3 h4 => cluster_sources hself hf hcm h1 h2 h3 h4))

/-- C17: every sink of every node returned by `skeletonize` is a contour vertex or a node returned,
when comparing numbers for equality is exact and every position is near itself. -/
theorem C17_skeletonize (h : ExactEq S)
    (hself : ∀ p : V2 S, ((abs (p.x -. p.x) +. abs (p.y -. p.y)) <. lit 1 10) = true)
    (fuel : Nat) (cs : List (List (Edge2 S))) (sk : List (Subtree S))
    (hr : skeletonize fuel cs = some (.ok sk)) :
    ∀ a ∈ sk, ∀ s ∈ a.sinks, (∃ c ∈ cs, ∃ e ∈ c, e.p1 = s) ∨ ∃ b ∈ sk, b.source = s := by
  obtain ⟨lp, lp', hlp, hml, hfin⟩ := skeletonize_ok hr
  have h0 : ClosedIn (ContourVertex cs) lp'.out := fun a ha s hs => (C47_run hlp hml a ha).2 s hs
  unfold finish at hfin
  obtain ⟨sk1, hm, hg⟩ := bind_ok.1 hfin
  have h1 : ClosedIn (ContourVertex cs) sk1 := by
    rcases C30_mergeNodeClusters lp'.out cs with
      ⟨outer, rest, m, out, -, h', hms, -⟩ | ⟨-, h'⟩ | ⟨_, _, _, -, h', -⟩
    all_goals rw [hm] at h'; cases h'
    exact (h0.mergeSame h).merges h hself hms
  rcases C33_removeGhosts sk1 with ⟨e, he, _⟩ | ⟨out, ho, hn, -, hs⟩
  · rw [hg] at he; cases he
  · rw [hg] at ho; cases ho
    intro a ha s hsa
    obtain ⟨b, hb, hsb⟩ := hs a ha s hsa
    rcases h1 b hb s hsb with h | ⟨d, hd, rfl⟩
    · exact .inl h
    · right
      have : (d.source, d.height) ∈ sk.map (fun a => (a.source, a.height)) := by
        rw [hn]; exact List.mem_map.2 ⟨d, hd, rfl⟩
      obtain ⟨d', hd', he⟩ := List.mem_map.1 this
      exact ⟨d', hd', congrArg Prod.fst he⟩

/-! ### C18 -/

theorem removeItems_subset {face items r : List Int} (h : removeItems face items = .ok r) :
    ∀ v ∈ r, v ∈ face := by
  induction items generalizing face with
  | nil => simp only [removeItems, Except.ok.injEq] at h; subst h; exact fun v hv => hv
  | cons a items ih =>
    unfold removeItems at h
    obtain ⟨f', h1, h⟩ := bind_ok.1 h
    unfold pyRemove at h1
    split at h1
    · cases h1; intro v hv; exact List.mem_of_mem_erase (ih h v hv)
    · cases h1

theorem cleanFaces_subset {verts : List (V3 S)} {n : Nat} {faces out : List (List Int)}
    (h : cleanFaces verts n faces = .ok out) : ∀ f ∈ out, ∀ v ∈ f, ∃ f₀ ∈ faces, v ∈ f₀ := by
  unfold cleanFaces at h
  intro f hf v hv
  obtain ⟨f0, hf0, h⟩ := forall₂_mem_right (mapM_ok h) hf
  refine ⟨f0, hf0, ?_⟩
  unfold cleanFace at h
  simp only at h
  split at h
  · obtain ⟨ts, -, h⟩ := bind_ok.1 h
    obtain ⟨rm', -, h⟩ := bind_ok.1 h
    obtain ⟨mid, h1, h⟩ := bind_ok.1 h
    obtain ⟨rm, -, h⟩ := bind_ok.1 h
    exact removeItems_subset h1 v (removeItems_subset h v hv)
  · rw [ok_bind] at h
    obtain ⟨rm, -, h⟩ := bind_ok.1 h
    exact removeItems_subset h v hv

theorem facesOf_all {rt : Rt} {a : PolyArgs S} {edges : List (Edge2 S)} {sk : List (Subtree S)}
    {verts : List (V3 S)} {fs : List (List Int)} {P : Int → Prop}
    (hds : ∀ ds, graphDarts a edges sk = .ok ds → ∀ d ∈ ds, P d.1 ∧ P d.2)
    (h : facesOf rt a edges sk verts = .ok fs) : ∀ f ∈ fs, ∀ v ∈ f, P v := by
  unfold facesOf at h
  obtain ⟨ds, h1, h⟩ := bind_ok.1 h
  obtain ⟨emb, h2, h⟩ := bind_ok.1 h
  obtain ⟨f1, h3, h⟩ := bind_ok.1 h
  obtain ⟨f2, h4, h⟩ := bind_ok.1 h
  intro f hf v hv
  obtain ⟨g, hg, hv⟩ := cleanFaces_subset h f hf v hv
  obtain ⟨g', hg', hv⟩ := (C39_spikes_subset verts _ f1 f2 h4).2 g hg v hv
  exact faces_all (addEdges_all (hds ds h1)) (C11_embedding_perm rt _ emb verts true h2).2 h3 g' hg' v hv

theorem onContour_lt {a : PolyArgs S} {z : S} {c : V3 S} {cs : List (List (Edge2 S))}
    (h : buildContours a = .ok (z, c, cs)) {i : Nat} (hi : OnContour a i) : i < a.verts.length := by
  obtain ⟨f, hf, h1, h2⟩ := hi
  have hm : (i, f.1 + (i - f.1 + 1) % f.2) ∈ edgeEnds a := by
    unfold edgeEnds
    exact List.mem_flatMap.2 ⟨f, hf, List.mem_map.2 ⟨i - f.1, by simp; omega, by simp; omega⟩⟩
  obtain ⟨j, hj⟩ := List.mem_iff_getElem?.1 hm
  have hz : ((i, f.1 + (i - f.1 + 1) % f.2), j) ∈ (edgeEnds a).zipIdx := by
    rw [List.mem_zipIdx_iff_getElem?]; exact hj
  obtain ⟨e, -, A, B, hA, -⟩ := forall₂_mem_left (C52_contours a z c cs h).2 hz
  exact (List.getElem?_eq_some_iff.1 hA).1

/-- C18, in every arithmetic: every index in a new face is the index of a vertex of a contour, the
index of a vertex added by the call, or the error index -1. -/
theorem C18_indices_partial (rt : Rt) (fuel : Nat) (a : PolyArgs S) (out : PolyOut S)
    (r : List (List Int)) (h : polygonize rt fuel a = some out) (hr : out.result = .ok r) :
    ∃ new, r = a.faces.getD [] ++ new ∧ ∀ f ∈ new, ∀ v ∈ f,
      (∃ i : Nat, v = i ∧ i < a.verts.length ∧
        ∃ c ∈ (a.first, a.num) :: a.holes.getD [], c.1 ≤ i ∧ i < c.1 + c.2) ∨
      (∃ i : Nat, v = i ∧ a.verts.length ≤ i ∧ i < out.verts.length) ∨ v = -1 := by
  cases polygonize_ends h with
  | early e => cases hr
  | noTan => cases hr
  | late => cases hr
  | done z c cs sk ta fs hb hs ht hf =>
    cases hr
    refine ⟨fs, rfl, ?_⟩
    have := facesOf_all (P := GraphVert a sk.length)
      (fun ds hds => graphDarts_verts (contour_edge_index hb) hds) hf
    intro f hf v hv
    rcases this f hf v hv with ⟨k, rfl, hk⟩ | ⟨j, rfl, hj⟩ | ⟨rfl, -⟩
    · exact .inl ⟨k, rfl, onContour_lt hb hk, hk⟩
    · exact .inr (.inl ⟨_, rfl, by omega, by simp; omega⟩)
    · exact .inr (.inr rfl)

/-- C18: when comparing numbers for equality is exact and every position is near itself, every index
in a new face is the index of a vertex of a contour or of a vertex added by the call; the error
index -1 does not occur. -/
theorem C18_indices (h : ExactEq S)
    (hself : ∀ p : V2 S, ((abs (p.x -. p.x) +. abs (p.y -. p.y)) <. lit 1 10) = true)
    (rt : Rt) (fuel : Nat) (a : PolyArgs S) (out : PolyOut S)
    (r : List (List Int)) (hp : polygonize rt fuel a = some out) (hr : out.result = .ok r) :
    ∃ new, r = a.faces.getD [] ++ new ∧ ∀ f ∈ new, ∀ v ∈ f, ∃ i : Nat, v = i ∧
      i < out.verts.length ∧ (a.verts.length ≤ i ∨
        ∃ c ∈ (a.first, a.num) :: a.holes.getD [], c.1 ≤ i ∧ i < c.1 + c.2) := by
  cases polygonize_ends hp with
  | early e => cases hr
  | noTan => cases hr
  | late => cases hr
  | done z c cs sk ta fs hb hs ht hf =>
    cases hr
    refine ⟨fs, rfl, ?_⟩
    have hclosed := C17_skeletonize h hself fuel cs sk hs
    have key : ∀ v : Int, GraphVert a sk.length v → v ≠ -1 → ∃ i : Nat, v = i ∧
      i < (a.verts ++ sk.map (node3D c z ta)).length ∧ (a.verts.length ≤ i ∨
        ∃ c ∈ (a.first, a.num) :: a.holes.getD [], c.1 ≤ i ∧ i < c.1 + c.2) := by
      rintro v (⟨k, rfl, hk⟩ | ⟨j, rfl, hj⟩ | ⟨rfl, -⟩) hv
      · exact ⟨k, rfl, by have := onContour_lt hb hk; simp; omega, .inr hk⟩
      · exact ⟨_, rfl, by simp; omega, .inl (by omega)⟩
      · exact absurd rfl hv
    refine facesOf_all (fun ds hds d hd => ?_) hf
    obtain ⟨g1, g2⟩ := graphDarts_verts (contour_edge_index hb) hds d hd
    have hne : d.1 ≠ -1 ∧ d.2 ≠ -1 := by
      unfold graphDarts at hds
      obtain ⟨d1, h1, hds⟩ := bind_ok.1 hds
      obtain ⟨d2, h2, hds⟩ := bind_ok.1 hds
      cases hds
      rcases List.mem_append.1 hd with hd | hd
      · rcases List.mem_append.1 hd with hd | hd
        · obtain ⟨⟨i, e1, -, -⟩, j, e2, -, -⟩ := mem_contourDarts h1 d hd
          omega
        · obtain ⟨f, hf, ⟨i, e1, -, -⟩, j, e2, -, -⟩ := mem_holeDarts h2 d hd
          omega
      · unfold skelDarts at hd
        obtain ⟨⟨s, j⟩, hs', hd⟩ := List.mem_flatMap.1 hd
        obtain ⟨q, hq, rfl⟩ := List.mem_map.1 hd
        have hsm : s ∈ sk := by
          rw [List.mem_zipIdx_iff_getElem?] at hs'
          exact List.mem_of_getElem? hs'
        refine ⟨by simp only; omega, ?_⟩
        simp only
        unfold sinkIndex
        split
        · omega
        · rename_i hnone
          split
          · omega
          · rename_i hnone'
            exfalso
            rcases hclosed s hsm q hq with ⟨c', hc', e, he, heq⟩ | ⟨b, hb', heq⟩
            · have := List.find?_eq_none.1 hnone e (List.mem_flatten.2 ⟨c', hc', he⟩)
              exact this (h.veq.2 heq)
            · have := List.findIdx?_eq_none_iff.1 hnone' b hb'
              rw [h.veq.2 heq] at this; cases this
    exact ⟨key _ g1 hne.1, key _ g2 hne.2⟩
end

/-! ### cases -/

theorem ilt_eq (a b : Int) : (!(Soft.ilt a b) && !(Soft.ilt b a)) = true ↔ a = b := by
  rw [Bool.and_eq_true, Bool.not_eq_true', Bool.not_eq_true', ← Bool.not_eq_true, ← Bool.not_eq_true]
  cases a <;> cases b <;>
    simp only [Soft.ilt, Nat.ble_eq, Int.ofNat.injEq, Int.negSucc.injEq, Nat.succ_eq_add_one]
  · omega
  · simp
  · simp
  · omega

/-- the hypotheses of C17 and C18 hold in IEEE arithmetic with exact comparison -/
theorem softX_exact : ExactEq SoftX := by
  have : ∀ a b : Soft, (!(Soft.ilt a.k b.k) && !(Soft.ilt b.k a.k)) = true ↔ a = b := by
    rintro ⟨a⟩ ⟨b⟩
    rw [ilt_eq]; simp
  exact ⟨this, this⟩

theorem softX_self (p : V2 SoftX) : ((abs (p.x -. p.x) +. abs (p.y -. p.y)) <. lit 1 10) = true := by
  have : ∀ a : SoftX, a -. a = (⟨0⟩ : Soft) := by
    rintro ⟨a⟩
    show Soft.ofInt64 (Int.sub a a) = _
    have : Int.sub a a = 0 := Int.sub_self a
    rw [this]; decide +kernel
  rw [this, this]; decide +kernel

/-- they hold over the reals -/
theorem real_self (p : V2 ℝ) : ((Scalar.abs (p.x -. p.x) +. Scalar.abs (p.y -. p.y)) <. (lit 1 10 : ℝ)) = true := by
  rw [ex_lt]; simp

/-- case for C17: a rectangle; two nodes with two and three sinks -/
example : (skeletonize 40 [ringEdgesX [(0, 0), (8, 0), (8, 4), (0, 4)]]).map
    (fun r => r.map (fun sk => sk.map (fun a => a.sinks.length))) = some (.ok [2, 3]) := by
  decide +kernel

/-- case for C18: an L-shaped polygon -/
example : (polygonize rt0 60 (simpleCallX
      [(0, 0), (8, 0), (8, 8), (4, 8), (4, 4), (0, 4)] 1 2)).map (·.result) =
    some (.ok [[5, 0, 6], [4, 5, 6, 8], [0, 1, 8, 6], [1, 2, 7, 8], [2, 3, 7], [3, 4, 8, 7]]) := by
  decide +kernel

/-- closed, with the tolerant comparison of mathutils -/
def closedSoft (cs : List (List (Edge2 Soft))) (sk : List (Subtree Soft)) : Bool :=
  sk.all (fun a => a.sinks.all (fun s =>
    cs.any (fun c => c.any (fun e => V2.veq e.p1 s)) || sk.any (fun b => V2.veq b.source s)))

/-- the last 32-bit number below 0.1 and the first one above -/
def belowTenth : Soft := rnd (lit 13421772 134217728)
def aboveTenth : Soft := rnd (lit 13421773 134217728)

/-- five nodes on a short stretch; the last one is one unit in the last place away from the one
before it, and beyond the distance 0.1 from the first one -/
def danglingIn : List (Subtree Soft) :=
  [⟨sp2 0 0, sq 1, []⟩, ⟨mkV2 (sq (-11) 128) (sq 0), sq 1, []⟩,
   ⟨mkV2 (sq (-11) 128) (sq 1 128), sq 1, []⟩, ⟨mkV2 belowTenth (sq 0), sq 1, []⟩,
   ⟨mkV2 aboveTenth (sq 0), sq 1, [mkV2 (sq (-11) 128) (sq 0)]⟩]

/-- C17, exact comparison cannot be dropped: with the comparison of mathutils, which lets numbers
pass as equal that differ in the last place, the post-processing of a closed skeleton can leave a
sink that is neither a node nor a vertex.  The last node counts as one of the merged nodes and its
connection is not redirected. -/
theorem C17_tolerant_comparison :
    let cs := [ringEdges [(-100, -100), (100, -100), (100, 100), (-100, 100)]]
    closedSoft cs danglingIn = true ∧ (finish cs danglingIn).map (closedSoft cs) = .ok false := by
  decide +kernel

end Polyskel
