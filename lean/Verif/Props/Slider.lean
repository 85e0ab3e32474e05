import Verif.Props.Skeleton
import Verif.Props.Moves
import Verif.Model.Demo
import Verif.Spec.Exact
import Verif.Spec.Samples
import Verif.Spec.Runtime
/-
C75: moving the slider of the demo again and again.
-/
namespace Polyskel
open Scalar Graph

section lawless
variable {S : Type} [Scalar S]

/-- the contours are the same if vertices are added behind them -/
private theorem contours_more {a : PolyArgs S} (hn : 0 < a.num)
    (hfit : ∀ c ∈ (a.first, a.num) :: a.holes.getD [], c.1 + c.2 ≤ a.verts.length) (X : List (V3 S)) (t : S) :
    buildContours { a with verts := a.verts ++ X, tan := t } = buildContours a := by
  have hget : ∀ i, i < a.verts.length → (a.verts ++ X)[i]? = a.verts[i]? :=
    fun i hi => List.getElem?_append_left hi
  have hf := hfit (a.first, a.num) (by simp)
  simp only at hf
  have hout : ∀ i, a.first ≤ i → i < a.first + a.num → (a.verts ++ X)[i]? = a.verts[i]? :=
    fun i _ h2 => hget i (by omega)
  have hhol : ∀ f ∈ a.holes.getD [], ∀ i, f.1 ≤ i → i < f.1 + f.2 → (a.verts ++ X)[i]? = a.verts[i]? := by
    intro f hf i h1 h2
    have := hfit f (by simp [hf])
    exact hget i (by omega)
  have hc : centerOf (a.verts ++ X) a.first a.num = centerOf a.verts a.first a.num := by
    unfold centerOf
    rw [sumVerts_congr]
    intro i hi
    rw [List.mem_range'_1] at hi
    exact hout i hi.1 hi.2
  unfold buildContours
  simp only [hc, contourEdges_congr hout, holeContours_congr hhol]
  rw [pyGet_nat, pyGet_nat, hout a.first le_rfl (by omega)]

/-- one call -/
private theorem one_call {rt : Rt} {fuel : Nat} {a : PolyArgs S} (h0 : (a.height ==. fzero) = true)
    (hfa : a.faces = none) (hn : 0 < a.num)
    (hfit : ∀ c ∈ (a.first, a.num) :: a.holes.getD [], c.1 + c.2 ≤ a.verts.length) {X : List (V3 S)} {t : S}
    {out : PolyOut S} (h : createRoof rt fuel a (a.verts ++ X) t = some out) :
    (∃ e, out.result = .error e ∧ out.verts = a.verts ++ X ∧ out.debug = none ∧
      (buildContours a = .error e ∨ ∃ z c cs, buildContours a = .ok (z, c, cs) ∧
        skeletonize fuel cs = some (.error e))) ∨
    ∃ z c cs sk, buildContours a = .ok (z, c, cs) ∧ skeletonize fuel cs = some (.ok sk) ∧
      out.debug = some sk ∧ out.verts = a.verts ++ X ++ sk.map (node3D c z t) := by
  unfold createRoof polygonize at h
  rw [contours_more hn hfit X t] at h
  cases hb : buildContours a with
  | error e =>
    rw [hb] at h
    cases h
    exact .inl ⟨e, rfl, rfl, rfl, .inl rfl⟩
  | ok r =>
    obtain ⟨z, c, cs⟩ := r
    rw [hb] at h
    simp only at h
    cases hs : skeletonize fuel cs with
    | none => rw [hs] at h; cases h
    | some r =>
      cases r with
      | error e =>
        rw [hs] at h
        cases h
        exact .inl ⟨e, rfl, rfl, rfl, .inr ⟨z, c, cs, rfl, hs⟩⟩
      | ok sk =>
        rw [hs] at h
        have ht : tanAlpha a.height t sk = .ok t := by rw [tanAlpha, h0]; rfl
        simp only [ht, hfa] at h
        right
        refine ⟨z, c, cs, sk, rfl, hs, ?_⟩
        split at h
        · cases h; exact ⟨rfl, rfl⟩
        · cases h; exact ⟨rfl, rfl⟩

/-- C75: whatever pitches the slider of the demo is set to, one after the other, either all calls raise the
same exception before they add a vertex, or all calls compute the same skeleton; each call adds one vertex
for each of its nodes behind all others, those of different calls at the same places seen from above; the
vertices that were given stay what they were; and a call uses only the vertices of the contours and those it
has added itself, never those of earlier calls (-1 is the error index; see `C75_exact`). -/
theorem C75_slider (rt : Rt) (fuel : Nat) (a : PolyArgs S) (h0 : (a.height ==. fzero) = true)
    (hfa : a.faces = none) (hn : 0 < a.num)
    (hfit : ∀ c ∈ (a.first, a.num) :: a.holes.getD [], c.1 + c.2 ≤ a.verts.length) (ts : List S)
    (outs : List (PolyOut S)) (h : slide rt fuel a a.verts ts = some outs) :
    outs.length = ts.length ∧
    ((∃ e, ∀ out ∈ outs, out.result = .error e ∧ out.verts = a.verts) ∨
    ∃ (sk : List (Subtree S)) (N : S → List (V3 S)) (ctr A : V3 S),
      a.verts[a.first]? = some A ∧ centerOf a.verts a.first a.num = .ok ctr ∧
      (∀ t, N t = sk.map fun s =>
        V3.add (mkV3 s.source.x s.source.y (s.height *. t +. A.z)) ctr) ∧
      (∀ (t t' : S) (j : Nat) (V V' : V3 S), (N t)[j]? = some V → (N t')[j]? = some V' → V.x = V'.x ∧ V.y = V'.y) ∧
      ∀ k out, outs[k]? = some out → out.debug = some sk ∧
        out.verts = a.verts ++ (ts.take (k + 1)).flatMap N ∧
        ∀ r, out.result = .ok r → ∀ f ∈ r, ∀ v ∈ f, v = (-1 : Int) ∨ ∃ i : Nat, v = (i : Int) ∧
          ((∃ c ∈ (a.first, a.num) :: a.holes.getD [], c.1 ≤ i ∧ i < c.1 + c.2) ∨
            (a.verts.length + k * sk.length ≤ i ∧ i < a.verts.length + (k + 1) * sk.length))) := by
  -- the length
  have hlen : ∀ ts outs V, slide rt fuel a V ts = some outs → outs.length = ts.length := by
    intro ts
    induction ts with
    | nil => intro outs V h; cases h; rfl
    | cons t ts ih =>
      intro outs V h
      unfold slide at h
      split at h
      · cases h
      · obtain ⟨o, ho, rfl⟩ := Option.map_eq_some_iff.1 h
        simp [ih _ _ ho]
  refine ⟨hlen _ _ _ h, ?_⟩
  by_cases hsk : ∃ z c cs sk, buildContours a = .ok (z, c, cs) ∧ skeletonize fuel cs = some (.ok sk)
  · obtain ⟨z, c, cs, sk, hb, hs⟩ := hsk
    right
    have hz : ∃ A, a.verts[a.first]? = some A ∧ centerOf a.verts a.first a.num = .ok c ∧ z = A.z := by
      have hb' := hb
      unfold buildContours at hb'
      obtain ⟨A, hA, hb'⟩ := bind_ok.1 hb'
      obtain ⟨ctr, hctr, hb'⟩ := bind_ok.1 hb'
      obtain ⟨ou, hou, hb'⟩ := bind_ok.1 hb'
      obtain ⟨ho, hho, hb'⟩ := bind_ok.1 hb'
      simp only [pure_ok, Except.ok.injEq, Prod.mk.injEq] at hb'
      obtain ⟨rfl, rfl, -⟩ := hb'
      exact ⟨A, pyGet_nat_ok.1 hA, hctr, rfl⟩
    obtain ⟨A, hA, hctr, rfl⟩ := hz
    refine ⟨sk, fun t => sk.map (node3D c A.z t), c, A, hA, hctr, fun t => rfl, ?_, ?_⟩
    · intro t t' j V V' h1 h2
      simp only [List.getElem?_map, Option.map_eq_some_iff] at h1 h2
      obtain ⟨s, hs1, rfl⟩ := h1
      obtain ⟨s', hs2, rfl⟩ := h2
      rw [hs1] at hs2
      cases hs2
      exact ⟨rfl, rfl⟩
    · have key : ∀ ts outs X, slide rt fuel a (a.verts ++ X) ts = some outs → ∀ k out, outs[k]? = some out →
          out.debug = some sk ∧
          out.verts = a.verts ++ X ++ (ts.take (k + 1)).flatMap (fun t => sk.map (node3D c A.z t)) ∧
          ∀ r, out.result = .ok r → ∀ f ∈ r, ∀ v ∈ f, v = (-1 : Int) ∨ ∃ i : Nat, v = (i : Int) ∧
            ((∃ c ∈ (a.first, a.num) :: a.holes.getD [], c.1 ≤ i ∧ i < c.1 + c.2) ∨
              (a.verts.length + X.length + k * sk.length ≤ i ∧
                i < a.verts.length + X.length + (k + 1) * sk.length)) := by
        intro ts
        induction ts with
        | nil => intro outs X h k out hk; cases h; simp at hk
        | cons t ts ih =>
          intro outs X h k out hk
          unfold slide at h
          split at h
          · cases h
          · rename_i o ho
            obtain ⟨os, hos, rfl⟩ := Option.map_eq_some_iff.1 h
            rcases one_call h0 hfa hn hfit ho with ⟨e, -, -, -, he⟩ | ⟨z', c', cs', sk', hb', hs', hd, hv⟩
            · rcases he with he | ⟨z', c', cs', hb', hs'⟩
              · rw [hb] at he; cases he
              · rw [hb] at hb'; cases hb'; rw [hs] at hs'; cases hs'
            · rw [hb] at hb'
              cases hb'
              rw [hs] at hs'
              cases hs'
              cases k with
              | zero =>
                simp only [List.getElem?_cons_zero, Option.some.injEq] at hk
                subst hk
                refine ⟨hd, by rw [hv]; simp, ?_⟩
                intro r hr f hf v hv'
                obtain ⟨new, hnew, hall⟩ := C18_indices_partial rt fuel _ o r ho hr
                simp only [hfa, Option.getD_none, List.nil_append] at hnew
                subst hnew
                rcases hall f hf v hv' with ⟨i, rfl, -, hc⟩ | ⟨i, rfl, h1, h2⟩ | rfl
                · exact .inr ⟨i, rfl, .inl hc⟩
                · rw [hv] at h2
                  simp only [List.length_append, List.length_map] at h1 h2
                  exact .inr ⟨i, rfl, .inr ⟨by omega, by omega⟩⟩
                · exact .inl rfl
              | succ k =>
                simp only [List.getElem?_cons_succ] at hk
                rw [hv, List.append_assoc] at hos
                obtain ⟨i1, i2, i3⟩ := ih _ _ hos k out hk
                refine ⟨i1, by rw [i2]; simp [List.append_assoc], ?_⟩
                intro r hr f hf v hv'
                rcases i3 r hr f hf v hv' with h | ⟨i, rfl, hc | ⟨h1, h2⟩⟩
                · exact .inl h
                · exact .inr ⟨i, rfl, .inl hc⟩
                · refine .inr ⟨i, rfl, .inr ?_⟩
                  simp only [List.length_append, List.length_map] at h1 h2
                  constructor
                  · have : (k + 1) * sk.length = k * sk.length + sk.length := by rw [Nat.add_mul, Nat.one_mul]
                    omega
                  · have : (k + 1 + 1) * sk.length = (k + 1) * sk.length + sk.length := by
                      rw [Nat.add_mul, Nat.one_mul]
                    omega
      intro k out hk
      have := key ts outs [] (by simpa using h) k out hk
      simpa using this
  · left
    -- all calls fail alike
    have key : ∀ ts outs, slide rt fuel a a.verts ts = some outs →
        ∀ out ∈ outs, ∃ e, out.result = .error e ∧ out.verts = a.verts ∧
          (buildContours a = .error e ∨ ∃ z c cs, buildContours a = .ok (z, c, cs) ∧
            skeletonize fuel cs = some (.error e)) := by
      intro ts
      induction ts with
      | nil => intro outs h; cases h; simp
      | cons t ts ih =>
        intro outs h
        unfold slide at h
        split at h
        · cases h
        · rename_i o ho
          obtain ⟨os, hos, rfl⟩ := Option.map_eq_some_iff.1 h
          rcases one_call (X := []) h0 hfa hn hfit (by simpa using ho) with
            ⟨e, h1, h2, -, he⟩ | ⟨z', c', cs', sk', hb', hs', -⟩
          · rw [List.append_nil] at h2
            rw [h2] at hos
            intro out ho'
            rcases List.mem_cons.1 ho' with rfl | ho'
            · exact ⟨e, h1, h2, he⟩
            · exact ih _ hos out ho'
          · exact absurd ⟨z', c', cs', sk', hb', hs'⟩ hsk
    cases outs with
    | nil => exact ⟨.value, by simp⟩
    | cons o os =>
      obtain ⟨e, -, -, he⟩ := key ts _ h o (by simp)
      refine ⟨e, fun out ho => ?_⟩
      obtain ⟨e', h1, h2, he'⟩ := key ts _ h out ho
      have : e' = e := by
        rcases he with he | ⟨z, c, cs, hb, hs⟩ <;> rcases he' with he' | ⟨z', c', cs', hb', hs'⟩
        · rw [he] at he'; cases he'; rfl
        · rw [he] at hb'; cases hb'
        · rw [hb] at he'; cases he'
        · rw [hb] at hb'; cases hb'; rw [hs] at hs'; cases hs'; rfl
      exact ⟨by rw [h1, this], h2⟩

/-- each call is a call of `create_roof` -/
private theorem slide_call {rt : Rt} {fuel : Nat} {a : PolyArgs S} : ∀ {ts : List S} {V : List (V3 S)}
    {outs : List (PolyOut S)}, slide rt fuel a V ts = some outs → ∀ (k : Nat) out, outs[k]? = some out →
    ∃ W t, ts[k]? = some t ∧ createRoof rt fuel a W t = some out := by
  intro ts
  induction ts with
  | nil => intro V outs h k out hk; cases h; simp at hk
  | cons t ts ih =>
    intro V outs h k out hk
    unfold slide at h
    split at h
    · cases h
    · rename_i o ho
      obtain ⟨os, hos, rfl⟩ := Option.map_eq_some_iff.1 h
      cases k with
      | zero =>
        simp only [List.getElem?_cons_zero, Option.some.injEq] at hk
        subst hk
        exact ⟨V, t, rfl, ho⟩
      | succ k =>
        simp only [List.getElem?_cons_succ] at hk
        obtain ⟨W, t', h1, h2⟩ := ih hos k out hk
        exact ⟨W, t', by simpa using h1, h2⟩

end lawless

/-- C75 in exact arithmetic: the error index does not occur, and the nodes of a call with the slope `t` have
the heights `t * h` over the eaves, with the same `h` for all calls. -/
theorem C75_exact (rt : Rt) (fuel : Nat) (a : PolyArgs ℝ) (h0 : a.height = 0)
    (hfa : a.faces = none) (hn : 0 < a.num)
    (hfit : ∀ c ∈ (a.first, a.num) :: a.holes.getD [], c.1 + c.2 ≤ a.verts.length) (ts : List ℝ)
    (outs : List (PolyOut ℝ)) (h : slide rt fuel a a.verts ts = some outs) :
    (∃ e, ∀ out ∈ outs, out.result = .error e ∧ out.verts = a.verts) ∨
    ∃ (P : List (V2 ℝ × ℝ)) (A : V3 ℝ), a.verts[a.first]? = some A ∧
      ∀ k out, outs[k]? = some out →
        out.verts = a.verts ++ (ts.take (k + 1)).flatMap (fun t =>
          P.map fun q => ⟨q.1.x, q.1.y, A.z + t * q.2⟩) ∧
        ∀ r, out.result = .ok r → ∀ f ∈ r, ∀ v ∈ f, ∃ i : Nat, v = (i : Int) ∧
          ((∃ c ∈ (a.first, a.num) :: a.holes.getD [], c.1 ≤ i ∧ i < c.1 + c.2) ∨
            (a.verts.length + k * P.length ≤ i ∧ i < a.verts.length + (k + 1) * P.length)) := by
  obtain ⟨-, hl | ⟨sk, N, ctr, A, hA, hctr, hN, -, hk⟩⟩ :=
    C75_slider rt fuel a (by rw [h0]; simp [fzero]) hfa hn hfit ts outs h
  · exact .inl hl
  · right
    obtain ⟨-, -, -, -, hz⟩ := centerOf_exact hctr
    refine ⟨sk.map fun s => (⟨s.source.x + ctr.x, s.source.y + ctr.y⟩, s.height), A, hA, ?_⟩
    intro k out hko
    obtain ⟨-, h2, h3⟩ := hk k out hko
    constructor
    · rw [h2]
      congr 1
      congr 1
      funext t
      rw [hN]
      simp only [List.map_map]
      apply List.map_congr_left
      intro s _
      simp [V3.add, mkV3, hz]
      ring
    · intro r hr f hf v hv
      obtain ⟨W, t, -, hc⟩ := slide_call h k out hko
      obtain ⟨new, hnew, hall⟩ := C18_indices exactEq_real (by intro p; simp) rt fuel _ out r hc hr
      simp only [hfa, Option.getD_none, List.nil_append] at hnew
      subst hnew
      obtain ⟨i, rfl, -⟩ := hall f hf v hv
      rcases h3 r hr f hf _ hv with h | ⟨j, h1, h2⟩
      · omega
      · rw [List.length_map]
        exact ⟨j, h1, h2⟩

/-- the constants of the demo meet the hypotheses, in any arithmetic in which 0 = 0 -/
example {S : Type} [Scalar S] (h : ((fzero : S) ==. fzero) = true) :
    ((demoArgs (S := S)).height ==. fzero) = true ∧ (demoArgs (S := S)).faces = none ∧ 0 < (demoArgs (S := S)).num ∧
    ∀ c ∈ ((demoArgs (S := S)).first, (demoArgs (S := S)).num) :: (demoArgs (S := S)).holes.getD [],
      c.1 + c.2 ≤ (demoArgs (S := S)).verts.length := by
  refine ⟨h, rfl, by simp [demoArgs], ?_⟩
  simp [demoArgs]

/-- three positions of the slider over a triangle: each call adds its own node -/
example : (slide rt0 60 (simpleCall [(0, 0), (4, 0), (0, 3)] 1 1) (ground [(0, 0), (4, 0), (0, 3)])
      [sq 1 2, sq 1 1, sq 2 1]).map (fun outs => outs.map fun r => (r.verts.length, r.result)) =
    some [(4, .ok [[2, 0, 3], [1, 2, 3], [0, 1, 3]]), (5, .ok [[2, 0, 4], [1, 2, 4], [0, 1, 4]]),
      (6, .ok [[2, 0, 5], [1, 2, 5], [0, 1, 5]])] := by
  decide +kernel

end Polyskel
