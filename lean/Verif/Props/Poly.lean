import Mathlib.Data.List.Forall2
import Mathlib.Tactic.FieldSimp
import Mathlib.Tactic.Linarith
import Mathlib.Algebra.BigOperators.Group.List.Basic
import Verif.Model.Polygonize
import Verif.Spec.Exact
import Verif.Spec.Samples
import Verif.Proofs.Except
/-
C19, C20, C21, C23, C44, C52: what `polygonize` does with its arguments, bpypolyskel.py:882-1177.
-/
namespace Polyskel
open Scalar

section lawless
variable {S : Type} [Scalar S]

/-- How a call of `polygonize` can end: before the skeleton is complete (`early`), while computing
the pitch (`noTan`), while computing the faces (`late`), or normally (`done`). -/
inductive Ends (rt : Rt) (fuel : Nat) (a : PolyArgs S) : PolyOut S → Prop where
  | early (e : PyErr) : Ends rt fuel a ⟨a.verts, a.faces, none, .error e⟩
  | noTan (z : S) (c : V3 S) (cs : List (List (Edge2 S))) (sk : List (Subtree S)) (e : PyErr)
      (hb : buildContours a = .ok (z, c, cs)) (hs : skeletonize fuel cs = some (.ok sk))
      (ht : tanAlpha a.height a.tan sk = .error e) :
      Ends rt fuel a ⟨a.verts, a.faces, some sk, .error e⟩
  | late (z : S) (c : V3 S) (cs : List (List (Edge2 S))) (sk : List (Subtree S)) (ta : S) (e : PyErr)
      (hb : buildContours a = .ok (z, c, cs)) (hs : skeletonize fuel cs = some (.ok sk))
      (ht : tanAlpha a.height a.tan sk = .ok ta)
      (hf : facesOf rt a cs.flatten sk (a.verts ++ sk.map (node3D c z ta)) = .error e) :
      Ends rt fuel a ⟨a.verts ++ sk.map (node3D c z ta), a.faces, some sk, .error e⟩
  | done (z : S) (c : V3 S) (cs : List (List (Edge2 S))) (sk : List (Subtree S)) (ta : S)
      (fs : List (List Int))
      (hb : buildContours a = .ok (z, c, cs)) (hs : skeletonize fuel cs = some (.ok sk))
      (ht : tanAlpha a.height a.tan sk = .ok ta)
      (hf : facesOf rt a cs.flatten sk (a.verts ++ sk.map (node3D c z ta)) = .ok fs) :
      Ends rt fuel a ⟨a.verts ++ sk.map (node3D c z ta), a.faces.map (· ++ fs), some sk,
        .ok (a.faces.getD [] ++ fs)⟩

theorem polygonize_ends {rt : Rt} {fuel : Nat} {a : PolyArgs S} {out : PolyOut S}
    (h : polygonize rt fuel a = some out) : Ends rt fuel a out := by
  unfold polygonize at h
  simp only at h
  split at h
  · cases h; exact .early _
  · rename_i z c cs hb
    split at h
    · cases h
    · cases h; exact .early _
    · rename_i sk hs
      split at h
      · rename_i e ht; cases h; exact .noTan z c cs sk e hb hs ht
      · rename_i ta ht
        split at h
        · rename_i e hf; cases h; exact .late z c cs sk ta e hb hs ht hf
        · rename_i fs hf
          have := Ends.done (rt := rt) z c cs sk ta fs hb hs ht hf
          split at h
          · rename_i hn; cases h; rw [hn] at this; exact this
          · rename_i old hn; cases h; rw [hn] at this; exact this

/-- C19, C44: the existing vertices stay, and a normal end has added one vertex per node. -/
theorem C19_prefix (rt : Rt) (fuel : Nat) (a : PolyArgs S) (out : PolyOut S)
    (h : polygonize rt fuel a = some out) :
    (∃ new, out.verts = a.verts ++ new) ∧
    ∀ r, out.result = .ok r → ∃ sk, out.debug = some sk ∧
      out.verts.length = a.verts.length + sk.length := by
  cases polygonize_ends h with
  | early e => exact ⟨⟨[], by simp⟩, fun r hr => by cases hr⟩
  | noTan => exact ⟨⟨[], by simp⟩, fun r hr => by cases hr⟩
  | late => exact ⟨⟨_, rfl⟩, fun r hr => by cases hr⟩
  | done => exact ⟨⟨_, rfl⟩, fun r hr => ⟨_, rfl, by simp⟩⟩

/-- C20: a call with a list `old` does the same as the call with None, except that the new faces
are appended to `old`, which is also returned; a call that raises leaves `old` as it was. -/
theorem C20_faces_argument (rt : Rt) (fuel : Nat) (a : PolyArgs S) (old : List (List Int)) :
    polygonize rt fuel { a with faces := some old } =
      (polygonize rt fuel { a with faces := none }).map (fun out =>
        { out with
          faces := some (match out.result with | .ok fs => old ++ fs | .error _ => old),
          result := match out.result with | .ok fs => .ok (old ++ fs) | .error e => .error e }) ∧
    ∀ out, polygonize rt fuel { a with faces := none } = some out → out.faces = none := by
  have e1 : ∀ fs, buildContours { a with faces := fs } = buildContours a := fun _ => rfl
  have e2 : ∀ fs ed sk vs, facesOf rt { a with faces := fs } ed sk vs = facesOf rt a ed sk vs :=
    fun _ _ _ _ => rfl
  constructor
  · unfold polygonize
    simp only [e1, e2]
    cases buildContours a with
    | error e => rfl
    | ok r =>
      obtain ⟨z, c, cs⟩ := r
      simp only
      cases skeletonize fuel cs with
      | none => rfl
      | some r =>
        cases r with
        | error e => rfl
        | ok sk =>
          simp only
          cases tanAlpha a.height a.tan sk with
          | error e => rfl
          | ok ta =>
            simp only
            cases facesOf rt a cs.flatten sk (a.verts ++ sk.map (node3D c z ta)) with
            | error e => rfl
            | ok fs => rfl
  · intro out h
    cases polygonize_ends h <;> rfl

/-- C44: what a call that raises leaves behind. -/
theorem C44_failure (rt : Rt) (fuel : Nat) (a : PolyArgs S) (out : PolyOut S) (e : PyErr)
    (h : polygonize rt fuel a = some out) (he : out.result = .error e) :
    out.faces = a.faces ∧ (out.debug = none → out.verts = a.verts) ∧
    (out.verts = a.verts ∨ ∃ sk new, out.debug = some sk ∧ new.length = sk.length ∧
      out.verts = a.verts ++ new) := by
  cases polygonize_ends h with
  | early e => exact ⟨rfl, fun _ => rfl, .inl rfl⟩
  | noTan => exact ⟨rfl, fun _ => rfl, .inl rfl⟩
  | late => exact ⟨rfl, (fun hd => by cases hd), .inr ⟨_, _, rfl, by simp, rfl⟩⟩
  | done => cases he

/-- C21: with a non-zero height the pitch is ignored. -/
theorem C21_pitch_ignored (rt : Rt) (fuel : Nat) (a : PolyArgs S) (t : S)
    (hh : (a.height ==. fzero) = false) :
    polygonize rt fuel { a with tan := t } = polygonize rt fuel a := by
  have e1 : buildContours { a with tan := t } = buildContours a := rfl
  have e2 : ∀ ed sk vs, facesOf rt { a with tan := t } ed sk vs = facesOf rt a ed sk vs :=
    fun _ _ _ => rfl
  have e3 : ∀ sk : List (Subtree S), tanAlpha a.height t sk = tanAlpha a.height a.tan sk := by
    intro sk; unfold tanAlpha; rw [if_neg (by simp [hh]), if_neg (by simp [hh])]
  unfold polygonize
  simp only [e1, e2, e3]

end lawless

/-! ### exact arithmetic -/

/-- mean of a coordinate over the outer contour -/
noncomputable def meanOf (f : V3 ℝ → ℝ) (verts : List (V3 ℝ)) (first num : Nat) : ℝ :=
  (((verts.drop first).take num).map f).sum / num

theorem sumVerts_exact {verts : List (V3 ℝ)} {num first : Nat} {acc s : V3 ℝ}
    (h : sumVerts verts acc (List.range' first num) = .ok s) :
    (num = 0 ∨ first + num ≤ verts.length) ∧
    s.x = acc.x + (((verts.drop first).take num).map (·.x)).sum ∧
    s.y = acc.y + (((verts.drop first).take num).map (·.y)).sum ∧
    s.z = acc.z + (((verts.drop first).take num).map (·.z)).sum := by
  induction num generalizing first acc with
  | zero => simp [sumVerts] at h; subst h; simp
  | succ n ih =>
    rw [List.range'_succ] at h
    unfold sumVerts at h
    obtain ⟨v, hv, h⟩ := bind_ok.1 h
    rw [pyGet_nat_ok] at hv
    obtain ⟨hlt, hv'⟩ := List.getElem?_eq_some_iff.1 hv
    obtain ⟨h1, h2, h3, h4⟩ := ih h
    have hd : verts.drop first = v :: verts.drop (first + 1) := by
      rw [List.drop_eq_getElem_cons hlt, hv']
    refine ⟨.inr (by omega), ?_, ?_, ?_⟩
    · rw [h2, hd]; simp [V3.add]; ring
    · rw [h3, hd]; simp [V3.add]; ring
    · rw [h4, hd]; simp [V3.add]; ring

theorem centerOf_exact {verts : List (V3 ℝ)} {first num : Nat} {c : V3 ℝ}
    (h : centerOf verts first num = .ok c) :
    0 < num ∧ first + num ≤ verts.length ∧ c.x = meanOf (·.x) verts first num ∧
      c.y = meanOf (·.y) verts first num ∧ c.z = 0 := by
  unfold centerOf at h
  obtain ⟨s, hs, h⟩ := bind_ok.1 h
  obtain ⟨d, hd, h⟩ := bind_ok.1 h
  cases h
  unfold V3.divBy at hd
  split at hd
  · cases hd
  · rename_i hn
    cases hd
    simp at hn
    obtain ⟨h1, h2, h3, h4⟩ := sumVerts_exact hs
    refine ⟨by omega, by omega, ?_, ?_, ?_⟩
    · simp [h2, meanOf]
    · simp [h3, meanOf]
    · simp

theorem centerOf_total {verts : List (V3 ℝ)} {first num : Nat} (h0 : 0 < num)
    (h : first + num ≤ verts.length) : ∃ c, centerOf verts first num = .ok c := by
  have key : ∀ (num first : Nat) (acc : V3 ℝ), first + num ≤ verts.length →
      ∃ s, sumVerts verts acc (List.range' first num) = .ok s := by
    intro num
    induction num with
    | zero => intro first acc _; exact ⟨acc, rfl⟩
    | succ n ih =>
      intro first acc hle
      rw [List.range'_succ]
      unfold sumVerts
      have hlt : first < verts.length := by omega
      rw [pyGet_nat_ok.2 (List.getElem?_eq_getElem hlt)]
      exact ih (first + 1) _ (by omega)
  obtain ⟨s, hs⟩ := key num first ⟨rnd fzero, rnd fzero, rnd fzero⟩ h
  unfold centerOf
  rw [hs]
  simp only [ok_bind]
  unfold V3.divBy
  rw [if_neg (by simp; omega)]
  exact ⟨_, rfl⟩

theorem buildContours_ok {S : Type} [Scalar S] {a : PolyArgs S} {z : S} {c : V3 S}
    {cs : List (List (Edge2 S))} (h : buildContours a = .ok (z, c, cs)) :
    ∃ v0 outer holes, a.verts[a.first]? = some v0 ∧ z = v0.z ∧ centerOf a.verts a.first a.num = .ok c ∧
      contourEdges a.verts c (effUnits a.units) 0 0 a.first a.num = .ok outer ∧
      holeContours a.verts c (effUnits a.units) a.num (a.holes.getD []) = .ok holes ∧
      cs = outer :: holes := by
  unfold buildContours at h
  obtain ⟨v0, hv0, h⟩ := bind_ok.1 h
  obtain ⟨c', hc, h⟩ := bind_ok.1 h
  obtain ⟨o, ho, h⟩ := bind_ok.1 h
  obtain ⟨hs, hhs, h⟩ := bind_ok.1 h
  cases h
  exact ⟨v0, o, hs, pyGet_nat_ok.1 hv0, rfl, hc, ho, hhs, rfl⟩

/-- the largest of the heights -/
theorem maxHeight_exact {sk : List (Subtree ℝ)} {m : ℝ} (h : maxHeight sk = .ok m) :
    (∃ s ∈ sk, s.height = m) ∧ ∀ s ∈ sk, s.height ≤ m := by
  cases sk with
  | nil => cases h
  | cons a as =>
    cases h
    have key : ∀ (as : List (Subtree ℝ)) (m : ℝ),
        let r := as.foldl (fun m b => if m <. b.height then b.height else m) m
        (r = m ∨ ∃ s ∈ as, s.height = r) ∧ m ≤ r ∧ ∀ s ∈ as, s.height ≤ r := by
      intro as
      induction as with
      | nil => intro m; simp
      | cons b as ih =>
        intro m
        simp only [List.foldl_cons]
        obtain ⟨h1, h2, h3⟩ := ih (if m <. b.height then b.height else m)
        by_cases hlt : m < b.height
        · rw [if_pos (by simpa using hlt)] at h1 h2 h3 ⊢
          refine ⟨.inr ?_, by linarith, ?_⟩
          · rcases h1 with h1 | ⟨s, hs, e⟩
            · exact ⟨b, by simp, h1.symm⟩
            · exact ⟨s, by simp [hs], e⟩
          · intro s hs
            rcases List.mem_cons.1 hs with rfl | hs
            · exact h2
            · exact h3 s hs
        · rw [if_neg (by simpa using hlt)] at h1 h2 h3 ⊢
          refine ⟨?_, h2, ?_⟩
          · rcases h1 with h1 | ⟨s, hs, e⟩
            · exact .inl h1
            · exact .inr ⟨s, by simp [hs], e⟩
          · intro s hs
            rcases List.mem_cons.1 hs with rfl | hs
            · linarith
            · exact h3 s hs
    obtain ⟨h1, h2, h3⟩ := key as a.height
    refine ⟨?_, ?_⟩
    · rcases h1 with h1 | ⟨s, hs, e⟩
      · exact ⟨a, by simp, h1.symm⟩
      · exact ⟨s, by simp [hs], e⟩
    · intro s hs
      rcases List.mem_cons.1 hs with rfl | hs
      · exact h2
      · exact h3 s hs

/-- what the pitch is -/
theorem tanAlpha_exact {h t ta : ℝ} {sk : List (Subtree ℝ)} (hta : tanAlpha h t sk = .ok ta) :
    (h = 0 ∧ ta = t) ∨
    (h ≠ 0 ∧ ∃ s ∈ sk, s.height ≠ 0 ∧ ta = h / s.height ∧ ∀ s' ∈ sk, s'.height ≤ s.height) := by
  unfold tanAlpha at hta
  split at hta
  · rename_i h0; cases hta; exact .inl ⟨by simpa using h0, rfl⟩
  · rename_i h0
    obtain ⟨m, hm, hta⟩ := bind_ok.1 hta
    unfold pydiv at hta
    split at hta
    · cases hta
    · rename_i hm0
      cases hta
      obtain ⟨⟨s, hs, e⟩, hall⟩ := maxHeight_exact hm
      refine .inr ⟨by simpa using h0, s, hs, ?_, ?_, ?_⟩
      · rw [e]; simpa using hm0
      · rw [e]; rfl
      · intro s' hs'; rw [e]; exact hall s' hs'

/-- when computing the pitch raises -/
theorem tanAlpha_raises {h t : ℝ} {sk : List (Subtree ℝ)} {e : PyErr}
    (hta : tanAlpha h t sk = .error e) :
    h ≠ 0 ∧ ((sk = [] ∧ e = .value) ∨
      (e = .zeroDivision ∧ (∃ s ∈ sk, s.height = 0) ∧ ∀ s ∈ sk, s.height ≤ 0)) := by
  unfold tanAlpha at hta
  split at hta
  · cases hta
  · rename_i h0
    refine ⟨by simpa using h0, ?_⟩
    rcases bind_error.1 hta with hta | ⟨m, hm, hta⟩
    · left
      cases sk with
      | nil => cases hta; exact ⟨rfl, rfl⟩
      | cons a as => cases hta
    · right
      unfold pydiv at hta
      split at hta
      · rename_i hm0
        cases hta
        have hm0 : m = 0 := by simpa using hm0
        obtain ⟨h1, h2⟩ := maxHeight_exact hm
        rw [hm0] at h1 h2
        exact ⟨rfl, h1, h2⟩
      · cases hta

/-- C19 and C21 in exact arithmetic: after a call that returns, `verts` is the old list followed by
one vertex per node, in the order of the skeleton, at the node's position moved back by the
centre of the outer contour, and at the height `base + node height * t`; `t` is the given
tangent if `height` is 0, and `height / (largest node height)` otherwise. -/
theorem C19_verts (rt : Rt) (fuel : Nat) (a : PolyArgs ℝ) (out : PolyOut ℝ) (r : List (List Int))
    (h : polygonize rt fuel a = some out) (hr : out.result = .ok r) :
    ∃ sk new t base, out.debug = some sk ∧ out.verts = a.verts ++ new ∧
      a.verts[a.first]? = some base ∧
      List.Forall₂ (fun (s : Subtree ℝ) (v : V3 ℝ) =>
        v.x = s.source.x + meanOf (·.x) a.verts a.first a.num ∧
        v.y = s.source.y + meanOf (·.y) a.verts a.first a.num ∧
        v.z = base.z + s.height * t) sk new ∧
      (a.height = 0 → t = a.tan) ∧
      (a.height ≠ 0 → ∃ s ∈ sk, s.height ≠ 0 ∧ t * s.height = a.height ∧
        ∀ s' ∈ sk, s'.height ≤ s.height) := by
  cases polygonize_ends h with
  | early e => cases hr
  | noTan => cases hr
  | late => cases hr
  | done z c cs sk ta fs hb hs ht hf =>
    obtain ⟨v0, outer, holes, hv0, hz, hc, _⟩ := buildContours_ok hb
    obtain ⟨_, _, hcx, hcy, hcz⟩ := centerOf_exact hc
    refine ⟨sk, sk.map (node3D c z ta), ta, v0, rfl, rfl, hv0, ?_, ?_, ?_⟩
    · rw [List.forall₂_map_right_iff, List.forall₂_same]
      intro s _
      simp only [node3D, mkV3, V3.add, ex_add, ex_mul, ex_rnd, hcx, hcy, hcz, hz]
      refine ⟨trivial, trivial, by ring⟩
    · intro h0
      rcases tanAlpha_exact ht with ⟨_, h1⟩ | ⟨h1, _⟩
      · exact h1
      · exact absurd h0 h1
    · intro h0
      rcases tanAlpha_exact ht with ⟨h1, _⟩ | ⟨_, s, hs, h1, h2, h3⟩
      · exact absurd h1 h0
      · exact ⟨s, hs, h1, by rw [h2]; field_simp, h3⟩

/-- C21: with `height ≠ 0` some new vertex lies exactly `height` above the base, and, when no node
has negative height, all others lie between the base and it. -/
theorem C21_height (rt : Rt) (fuel : Nat) (a : PolyArgs ℝ) (out : PolyOut ℝ) (r : List (List Int))
    (h : polygonize rt fuel a = some out) (hr : out.result = .ok r) (hh : a.height ≠ 0) :
    ∃ base new, a.verts[a.first]? = some base ∧ out.verts = a.verts ++ new ∧
      (∃ v ∈ new, v.z = base.z + a.height) ∧
      ((∀ sk, out.debug = some sk → ∀ s ∈ sk, 0 ≤ s.height) → 0 < a.height →
        ∀ v ∈ new, base.z ≤ v.z ∧ v.z ≤ base.z + a.height) := by
  obtain ⟨sk, new, t, base, h1, h2, h3, h4, _, h6⟩ := C19_verts rt fuel a out r h hr
  obtain ⟨s, hs, hs0, hst, hmax⟩ := h6 hh
  refine ⟨base, new, h3, h2, ?_, ?_⟩
  · obtain ⟨i, hi, rfl⟩ := List.mem_iff_getElem.1 hs
    rw [List.forall₂_iff_get] at h4
    have hi' : i < new.length := by rw [← h4.1]; exact hi
    obtain ⟨_, _, hz⟩ := h4.2 i hi hi'
    refine ⟨new[i], List.getElem_mem _, ?_⟩
    simp only [List.get_eq_getElem] at hz
    rw [hz, ← hst]; ring
  · intro hnn hpos v hv
    obtain ⟨i, hi, rfl⟩ := List.mem_iff_getElem.1 hv
    rw [List.forall₂_iff_get] at h4
    have hi' : i < sk.length := by rw [h4.1]; exact hi
    obtain ⟨_, _, hz⟩ := h4.2 i hi' hi
    simp only [List.get_eq_getElem] at hz
    have hp : 0 < s.height := lt_of_le_of_ne (hnn sk h1 s hs) (Ne.symm hs0)
    have ht : 0 < t := by
      apply lt_of_not_ge; intro hle
      have := mul_nonpos_of_nonpos_of_nonneg hle hp.le
      linarith
    have h5 := hnn sk h1 _ (List.getElem_mem hi')
    have h7 := hmax _ (List.getElem_mem hi')
    rw [hz, ← hst]
    constructor
    · nlinarith
    · nlinarith

/-- C21: with `height = 0` each new vertex lies `tan * node height` above the base; with both zero
all lie at the base height. -/
theorem C21_tan (rt : Rt) (fuel : Nat) (a : PolyArgs ℝ) (out : PolyOut ℝ) (r : List (List Int))
    (h : polygonize rt fuel a = some out) (hr : out.result = .ok r) (hh : a.height = 0) :
    ∃ base new sk, a.verts[a.first]? = some base ∧ out.verts = a.verts ++ new ∧
      out.debug = some sk ∧
      List.Forall₂ (fun (s : Subtree ℝ) (v : V3 ℝ) => v.z = base.z + a.tan * s.height) sk new ∧
      (a.tan = 0 → ∀ v ∈ new, v.z = base.z) := by
  obtain ⟨sk, new, t, base, h1, h2, h3, h4, h5, _⟩ := C19_verts rt fuel a out r h hr
  have ht := h5 hh
  have h6 : List.Forall₂ (fun (s : Subtree ℝ) (v : V3 ℝ) => v.z = base.z + a.tan * s.height) sk new :=
    h4.imp (fun s v hv => by rw [hv.2.2, ht]; ring)
  refine ⟨base, new, sk, h3, h2, h1, h6, ?_⟩
  intro h0 v hv
  obtain ⟨i, hi, rfl⟩ := List.mem_iff_getElem.1 hv
  rw [List.forall₂_iff_get] at h6
  have hi' : i < sk.length := by rw [h6.1]; exact hi
  have := h6.2 i hi' hi
  simp only [List.get_eq_getElem, h0] at this
  rw [this]; ring

/-- C21: once the skeleton `sk` is known, the computation of the pitch raises exactly when `height`
is not 0 and there is no node (ValueError) or the highest node has height 0 (ZeroDivisionError);
`verts` is then unchanged. -/
theorem C21_raises (rt : Rt) (fuel : Nat) (a : PolyArgs ℝ) (out : PolyOut ℝ) (sk : List (Subtree ℝ))
    (h : polygonize rt fuel a = some out) (hd : out.debug = some sk) :
    ((a.height ≠ 0 ∧ sk = []) → out.result = .error .value ∧ out.verts = a.verts) ∧
    ((a.height ≠ 0 ∧ (∃ s ∈ sk, s.height = 0) ∧ ∀ s ∈ sk, s.height ≤ 0) →
      out.result = .error .zeroDivision ∧ out.verts = a.verts) ∧
    (¬ (a.height ≠ 0 ∧ (sk = [] ∨ (∃ s ∈ sk, s.height = 0) ∧ ∀ s ∈ sk, s.height ≤ 0)) →
      out.verts.length = a.verts.length + sk.length) := by
  have main : (∃ e, out.result = .error e ∧ out.verts = a.verts ∧
      tanAlpha a.height a.tan sk = .error e) ∨ (∃ ta, tanAlpha a.height a.tan sk = .ok ta ∧
        out.verts.length = a.verts.length + sk.length) := by
    cases polygonize_ends h with
    | early e => cases hd
    | noTan z c cs sk' e hb hs ht => cases hd; exact .inl ⟨e, rfl, rfl, ht⟩
    | late z c cs sk' ta e hb hs ht hf => cases hd; exact .inr ⟨ta, ht, by simp⟩
    | done z c cs sk' ta fs hb hs ht hf => cases hd; exact .inr ⟨ta, ht, by simp⟩
  rcases main with ⟨e, h1, h2, h3⟩ | ⟨ta, h1, h2⟩
  · obtain ⟨h0, h4⟩ := tanAlpha_raises h3
    refine ⟨?_, ?_, ?_⟩
    · rintro ⟨_, rfl⟩
      rcases h4 with ⟨_, rfl⟩ | ⟨_, ⟨s, hs, _⟩, _⟩
      · exact ⟨h1, h2⟩
      · simp at hs
    · rintro ⟨_, ⟨s, hs, _⟩, _⟩
      rcases h4 with ⟨rfl, _⟩ | ⟨rfl, _⟩
      · simp at hs
      · exact ⟨h1, h2⟩
    · intro hn
      exact absurd ⟨h0, by
        rcases h4 with ⟨h4, _⟩ | ⟨_, h4⟩
        · exact .inl h4
        · exact .inr h4⟩ hn
  · have hno : ¬ (a.height ≠ 0 ∧ (sk = [] ∨ (∃ s ∈ sk, s.height = 0) ∧ ∀ s ∈ sk, s.height ≤ 0)) := by
      rintro ⟨h0, h3⟩
      rcases tanAlpha_exact h1 with ⟨h4, _⟩ | ⟨_, s, hs, hs0, _, hmax⟩
      · exact h0 h4
      · rcases h3 with rfl | ⟨⟨s', hs', e⟩, hall⟩
        · simp at hs
        · have h5 := hmax s' hs'
          have h6 := hall s hs
          exact hs0 (by linarith)
    refine ⟨fun hh => absurd ⟨hh.1, .inl hh.2⟩ hno, fun hh => absurd ⟨hh.1, .inr hh.2⟩ hno,
      fun _ => h2⟩

/-! ### C52: the contours -/

section contours
variable {S : Type} [Scalar S]

/-- the vertex indices of the ends of all polygon edges, in the documented order: outer contour,
then the holes -/
def edgeEnds (a : PolyArgs S) : List (Nat × Nat) :=
  ((a.first, a.num) :: a.holes.getD []).flatMap (fun c =>
    (List.range c.2).map (fun k => (c.1 + k, c.1 + (k + 1) % c.2)))

/-- what one edge looks like -/
def EdgeAt (verts : List (V3 S)) (center : V3 S) (units : Option (List (V3 S))) (k : Nat)
    (ij : Nat × Nat) (e : Edge2 S) : Prop :=
  ∃ A B, verts[ij.1]? = some A ∧ verts[ij.2]? = some B ∧ e.oid = k ∧ e.i1 = ij.1 ∧ e.i2 = ij.2 ∧
    e.p1 = V3.xy (V3.sub A center) ∧ e.p2 = V3.xy (V3.sub B center) ∧
    match units with
    | none => e.norm = V2.normalized (V2.sub e.p2 e.p1)
    | some us => ∃ u, us[k]? = some u ∧ e.norm = V3.xy u

theorem contourEdges_ok {verts : List (V3 S)} {center : V3 S} {units : Option (List (V3 S))}
    {o first num : Nat} {es : List (Edge2 S)}
    (h : contourEdges verts center units o o first num = .ok es) :
    0 < num ∧ es.length = num ∧ ∀ k e, es[k]? = some e →
      EdgeAt verts center units (o + k) (first + k, first + (k + 1) % num) e := by
  unfold contourEdges at h
  split at h
  · cases h
  · rename_i hn
    have hm := mapM_ok h
    have hl := mapM_length h
    rw [List.length_range] at hl
    refine ⟨by omega, hl, ?_⟩
    intro k e hke
    obtain ⟨hk, rfl⟩ := List.getElem?_eq_some_iff.1 hke
    rw [List.forall₂_iff_get] at hm
    have := hm.2 k (by simp; omega) hk
    simp only [List.get_eq_getElem, List.getElem_range] at this
    obtain ⟨u, hu, this⟩ : ∃ u, ((units = none ∧ u = none) ∨
        ∃ us w, units = some us ∧ us[o + k]? = some w ∧ u = some w) ∧ Edge2.ofVerts (o + k) (first + k)
        (if k + 1 = num then first else first + k + 1) u verts center = .ok es[k] := by
      cases units with
      | none => exact ⟨none, .inl ⟨rfl, rfl⟩, this⟩
      | some us =>
        obtain ⟨w, hw, this⟩ := bind_ok.1 this
        exact ⟨some w, .inr ⟨us, w, rfl, pyGet_nat_ok.1 hw, rfl⟩, this⟩
    unfold Edge2.ofVerts at this
    obtain ⟨A, hA, this⟩ := bind_ok.1 this
    obtain ⟨B, hB, this⟩ := bind_ok.1 this
    rw [pyGet_nat_ok] at hA hB
    simp only [pure_ok, Except.ok.injEq] at this
    have hj : (if k + 1 = num then first else first + k + 1) = first + (k + 1) % num := by
      split
      · rename_i e; rw [e, Nat.mod_self]; rfl
      · rw [Nat.mod_eq_of_lt (by omega)]; omega
    rw [hj] at this hB
    unfold EdgeAt
    rw [← this]
    refine ⟨A, B, hA, hB, rfl, rfl, rfl, rfl, rfl, ?_⟩
    rcases hu with ⟨rfl, rfl⟩ | ⟨us, w, rfl, hw, rfl⟩
    · rfl
    · exact ⟨w, hw, rfl⟩

theorem holeContours_ok {verts : List (V3 S)} {center : V3 S} {units : Option (List (V3 S))}
    {o : Nat} {hs : List (Nat × Nat)} {cs : List (List (Edge2 S))}
    (h : holeContours verts center units o hs = .ok cs) :
    List.Forall₂ (fun (c : Nat × Nat) (es : List (Edge2 S)) => 0 < c.2 ∧ es.length = c.2) hs cs ∧
    List.Forall₂ (fun (p : (Nat × Nat) × Nat) e => EdgeAt verts center units p.2 p.1 e)
      ((hs.flatMap (fun c => (List.range c.2).map (fun k => (c.1 + k, c.1 + (k + 1) % c.2)))).zipIdx o)
      cs.flatten := by
  induction hs generalizing o cs with
  | nil => cases h; exact ⟨.nil, .nil⟩
  | cons c hs ih =>
    obtain ⟨f, n⟩ := c
    unfold holeContours at h
    obtain ⟨es, he, h⟩ := bind_ok.1 h
    obtain ⟨rest, hr, h⟩ := bind_ok.1 h
    cases h
    obtain ⟨h0, h1, h2⟩ := contourEdges_ok he
    obtain ⟨h3, h4⟩ := ih hr
    refine ⟨.cons ⟨h0, h1⟩ h3, ?_⟩
    simp only [List.flatMap_cons, List.flatten_cons]
    rw [List.zipIdx_append]
    apply List.rel_append _
    · simp only [List.length_map, List.length_range]
      exact h4
    · rw [List.forall₂_iff_get]
      refine ⟨by simp [h1], ?_⟩
      intro k hk hk'
      have := h2 k es[k] (List.getElem?_eq_getElem hk')
      simpa using this

/-- C52: the contours handed to `skeletonize` are the outer contour and the holes, in the given
order; their edges run through the vertices in order and close the loop, are given relative
to the centre, numbered through, and carry the supplied unit vectors or the normalised
direction. -/
theorem C52_contours (a : PolyArgs S) (z : S) (c : V3 S) (cs : List (List (Edge2 S)))
    (h : buildContours a = .ok (z, c, cs)) :
    List.Forall₂ (fun (f : Nat × Nat) (es : List (Edge2 S)) => 0 < f.2 ∧ es.length = f.2)
      ((a.first, a.num) :: a.holes.getD []) cs ∧
    List.Forall₂ (fun (p : (Nat × Nat) × Nat) e => EdgeAt a.verts c
        (match a.units with | some [] => none | u => u) p.2 p.1 e)
      (edgeEnds a).zipIdx cs.flatten := by
  obtain ⟨v0, outer, holes, _, _, _, h1, h2, rfl⟩ := buildContours_ok h
  have h3 : holeContours a.verts c (effUnits a.units) 0 ((a.first, a.num) :: a.holes.getD []) =
      .ok (outer :: holes) := by
    unfold holeContours
    rw [h1, Nat.zero_add, h2]; rfl
  exact holeContours_ok h3

/-- C52: building the contours raises only IndexError (an index outside `verts` or `unitVectors`) or,
for a contour of zero vertices, ZeroDivisionError. -/
theorem C52_contours_raise (a : PolyArgs S) (e : PyErr) (h : buildContours a = .error e) :
    e = .index ∨ e = .zeroDivision := by
  have hget : ∀ {α : Type} (l : List α) (i : Nat) e, pyGet l (i : Int) = .error e → e = .index := by
    intro α l i e he; exact (pyGet_nat_error.1 he).2
  have hsum : ∀ (is : List Nat) (acc : V3 S) e, sumVerts a.verts acc is = .error e → e = .index := by
    intro is
    induction is with
    | nil => intro acc e he; cases he
    | cons i is ih =>
      intro acc e he
      unfold sumVerts at he
      rcases bind_error.1 he with he | ⟨v, _, he⟩
      · exact hget _ _ _ he
      · exact ih _ _ he
  have hcont : ∀ (c : V3 S) us o f n e, contourEdges a.verts c us o o f n = .error e → e = .index := by
    intro c us o f n e he
    unfold contourEdges at he
    split at he
    · cases he; rfl
    · obtain ⟨k, _, he⟩ := mapM_error he
      have hof : ∀ x j u, Edge2.ofVerts x (f + k) j u a.verts c = .error e → e = .index := by
        intro x j u he
        unfold Edge2.ofVerts at he
        rcases bind_error.1 he with he | ⟨A, _, he⟩
        · exact hget _ _ _ he
        · rcases bind_error.1 he with he | ⟨A, _, he⟩
          · exact hget _ _ _ he
          · cases he
      cases us with
      | none => exact hof (o + k) _ none (by simpa using he)
      | some us =>
        rcases bind_error.1 he with he | ⟨u, _, he⟩
        · exact hget _ _ _ he
        · exact hof (o + k) _ (some u) (by simpa using he)
  have hholes : ∀ (c : V3 S) us hs o e, holeContours a.verts c us o hs = .error e → e = .index := by
    intro c us hs
    induction hs with
    | nil => intro o e he; cases he
    | cons f hs ih =>
      intro o e he
      unfold holeContours at he
      rcases bind_error.1 he with he | ⟨_, _, he⟩
      · exact hcont _ _ _ _ _ _ he
      · rcases bind_error.1 he with he | ⟨_, _, he⟩
        · exact ih _ _ he
        · cases he
  unfold buildContours at h
  rcases bind_error.1 h with h | ⟨_, _, h⟩
  · exact .inl (hget _ _ _ h)
  rcases bind_error.1 h with h | ⟨_, _, h⟩
  · unfold centerOf at h
    rcases bind_error.1 h with h | ⟨_, _, h⟩
    · exact .inl (hsum _ _ _ h)
    · rcases bind_error.1 h with h | ⟨_, _, h⟩
      · unfold V3.divBy at h
        split at h
        · cases h; exact .inr rfl
        · cases h
      · cases h
  rcases bind_error.1 h with h | ⟨_, _, h⟩
  · exact .inl (hcont _ _ _ _ _ _ h)
  rcases bind_error.1 h with h | ⟨_, _, h⟩
  · exact .inl (hholes _ _ _ _ _ h)
  · cases h

/-! ### C23 -/

theorem contourEdges_units {verts : List (V3 S)} {center : V3 S} {us : List (V3 S)}
    {o first num : Nat}
    (hu : ∀ k A B, k < num → verts[first + k]? = some A → verts[first + (k + 1) % num]? = some B →
      ∃ u, us[o + k]? = some u ∧
        V3.xy u = V2.normalized (V2.sub (V3.xy (V3.sub B center)) (V3.xy (V3.sub A center)))) :
    contourEdges verts center (some us) o o first num = contourEdges verts center none o o first num := by
  unfold contourEdges
  split
  · rfl
  · rename_i hn
    -- both versions read the same vertices; a missing vertex or unit vector is an IndexError
    have key : ∀ l : List Nat, (∀ k ∈ l, k < num) →
        (∀ f g : Nat → Except PyErr (Edge2 S), (∀ k ∈ l, (∃ e, f k = .ok e ∧ g k = .ok e) ∨
          (f k = .error .index ∧ g k = .error .index)) → l.mapM f = l.mapM g) := by
      intro l hl f g hfg
      apply mapM_congr
      intro k hk
      rcases hfg k hk with ⟨e, h1, h2⟩ | ⟨h1, h2⟩ <;> rw [h1, h2]
    apply key _ (by simp)
    intro k hk
    have hk : k < num := by simpa using hk
    have hj : (if k + 1 = num then first else first + k + 1) = first + (k + 1) % num := by
      split
      · rename_i e; rw [e, Nat.mod_self]; rfl
      · rw [Nat.mod_eq_of_lt (by omega)]; omega
    rw [hj]
    have hu := hu k
    unfold Edge2.ofVerts
    simp only [pyGet_nat, ok_bind]
    cases hA : verts[first + k]? with
    | none =>
      right
      simp only [error_bind, and_true]
      cases us[o + k]? <;> rfl
    | some A =>
      cases hB : verts[first + (k + 1) % num]? with
      | none =>
        right
        simp only [error_bind, ok_bind, and_true]
        cases us[o + k]? <;> rfl
      | some B =>
        left
        obtain ⟨u, h1, h2⟩ := hu A B hk hA hB
        refine ⟨_, ?_, rfl⟩
        rw [h1]
        simp only [ok_bind, h2]; rfl

theorem holeContours_units {verts : List (V3 S)} {center : V3 S} {us : List (V3 S)}
    {o : Nat} {hs : List (Nat × Nat)}
    (hu : ∀ k i j A B,
      (hs.flatMap (fun c => (List.range c.2).map (fun k => (c.1 + k, c.1 + (k + 1) % c.2))))[k]? =
        some (i, j) → verts[i]? = some A → verts[j]? = some B →
      ∃ u, us[o + k]? = some u ∧
        V3.xy u = V2.normalized (V2.sub (V3.xy (V3.sub B center)) (V3.xy (V3.sub A center)))) :
    holeContours verts center (some us) o hs = holeContours verts center none o hs := by
  induction hs generalizing o with
  | nil => rfl
  | cons c hs ih =>
    obtain ⟨f, n⟩ := c
    unfold holeContours
    rw [contourEdges_units (o := o) (first := f) (num := n), ih (o := o + n)]
    · intro k i j A B hk hA hB
      have := hu (n + k) i j A B (by
        rw [List.flatMap_cons, List.getElem?_append_right (by simp)]
        simpa using hk) hA hB
      rw [← Nat.add_assoc] at this
      exact this
    · intro k A B hk hA hB
      refine hu k _ _ A B ?_ hA hB
      rw [List.flatMap_cons, List.getElem?_append_left (by simpa using hk)]
      simp [hk]

/-- C23: unit vectors that equal the normalised edge vectors computed inside, in the documented
order, change nothing; an empty list is the same as None. -/
theorem C23_unitVectors (rt : Rt) (fuel : Nat) (a : PolyArgs S) (us : List (V3 S))
    (hu : ∀ c (k i j : Nat) (A B : V3 S), centerOf a.verts a.first a.num = .ok c → (edgeEnds a)[k]? = some (i, j) →
      a.verts[i]? = some A → a.verts[j]? = some B → ∃ u, us[k]? = some u ∧
        V3.xy u = V2.normalized (V2.sub (V3.xy (V3.sub B c)) (V3.xy (V3.sub A c)))) :
    polygonize rt fuel { a with units := some us } = polygonize rt fuel { a with units := none } ∧
    polygonize rt fuel { a with units := some [] } = polygonize rt fuel { a with units := none } := by
  have h0 : buildContours { a with units := some [] } = buildContours { a with units := none } := rfl
  have hb : buildContours { a with units := some us } = buildContours { a with units := none } := by
    cases us with
    | nil => exact h0
    | cons u us =>
      unfold buildContours
      simp only [effUnits]
      cases pyGet a.verts (a.first : Int) with
      | error e => rfl
      | ok v0 =>
        simp only [ok_bind]
        cases hc : centerOf a.verts a.first a.num with
        | error e => rfl
        | ok c =>
          simp only [ok_bind]
          rw [contourEdges_units, holeContours_units]
          · intro k i j A B hk hA hB
            obtain ⟨u, h1, h2⟩ := hu c (a.num + k) i j A B hc (by
              unfold edgeEnds
              rw [List.flatMap_cons, List.getElem?_append_right (by simp)]
              simpa using hk) hA hB
            exact ⟨u, h1, h2⟩
          · intro k A B hk hA hB
            obtain ⟨u, h1, h2⟩ := hu c k _ _ A B hc (by
              unfold edgeEnds
              rw [List.flatMap_cons, List.getElem?_append_left (by simpa using hk)]
              simp [hk]) hA hB
            exact ⟨u, by simpa using h1, h2⟩
  have e2 : ∀ u ed sk vs, facesOf rt { a with units := u } ed sk vs = facesOf rt a ed sk vs :=
    fun _ _ _ _ => rfl
  constructor
  · unfold polygonize; simp only [hb, e2]
  · unfold polygonize; simp only [h0, e2]

end contours

/-- C23 in exact arithmetic: the supplied vectors only have to be the normalised differences of the
vertices. -/
theorem C23_unitVectors_exact (rt : Rt) (fuel : Nat) (a : PolyArgs ℝ) (us : List (V3 ℝ))
    (hu : ∀ (k i j : Nat) (A B : V3 ℝ), (edgeEnds a)[k]? = some (i, j) → a.verts[i]? = some A →
      a.verts[j]? = some B → ∃ u, us[k]? = some u ∧
        V3.xy u = V2.normalized ⟨B.x - A.x, B.y - A.y⟩) :
    polygonize rt fuel { a with units := some us } = polygonize rt fuel { a with units := none } := by
  refine (C23_unitVectors rt fuel a us ?_).1
  intro c k i j A B _ hk hA hB
  obtain ⟨u, h1, h2⟩ := hu k i j A B hk hA hB
  refine ⟨u, h1, ?_⟩
  rw [h2]
  congr 1
  simp [V2.sub, V3.xy, V3.sub]

/-! ### cases -/

/-- the rectangle 10 x 6 with a square hole of side 2 -/
def holeCall : PolyArgs Soft :=
  { verts := ground [(0, 0), (10, 0), (10, 6), (0, 6), (3, 2), (3, 4), (5, 4), (5, 2)], first := 0,
    num := 4, holes := some [(4, 4)], height := sq 0, tan := sq 1 2 }

example : edgeEnds holeCall = [(0, 1), (1, 2), (2, 3), (3, 0), (4, 5), (5, 6), (6, 7), (7, 4)] := by
  decide

/-- case: a rectangle, with a list of faces given -/
example : (polygonize rt0 20 { simpleCall [(0, 0), (8, 0), (8, 4), (0, 4)] 1 2 with
    faces := some [[7, 7]] }).map (fun o => (o.faces, o.result.toOption, o.verts.drop 4)) =
    some (some [[7, 7], [3, 0, 4], [2, 3, 4, 5], [0, 1, 5, 4], [1, 2, 5]],
      some [[7, 7], [3, 0, 4], [2, 3, 4, 5], [0, 1, 5, 4], [1, 2, 5]], [sp3 2 2 1, sp3 6 2 1]) := by
  decide +kernel

end Polyskel
