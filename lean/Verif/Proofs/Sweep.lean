import Verif.Proofs.ConvexWave
import Verif.Props.Equidistant
import Mathlib.Analysis.SpecialFunctions.Trigonometric.Deriv
/-
The geometry of a shrinking convex polygon, used for C60: closed chains of vectors turning left once
around, and the meeting point of two neighbouring bisectors.
-/
namespace Polyskel
open Scalar Real Geo

/-! ### Sums of sines along a chain -/

/-- the sum of `lam k * sin φ_k`, where the angle `φ_k` grows by `th k` at each `k` -/
noncomputable def sineSum (lam th : Nat → ℝ) : ℝ → List Nat → ℝ
  | _, [] => 0
  | φ, k :: T => lam k * sin (φ + th k) + sineSum lam th (φ + th k) T

variable {lam th : Nat → ℝ}

theorem sineSum_append (φ : ℝ) (T U : List Nat) : sineSum lam th φ (T ++ U) =
    sineSum lam th φ T + sineSum lam th (φ + (T.map th).sum) U := by
  induction T generalizing φ with
  | nil => simp [sineSum]
  | cons k T ih =>
    simp only [List.cons_append, sineSum, ih, List.map_cons, List.sum_cons]
    rw [show φ + th k + (T.map th).sum = φ + (th k + (T.map th).sum) by ring]
    ring

theorem sum_nonneg_of {T : List Nat} (h : ∀ k ∈ T, 0 < th k) : 0 ≤ (T.map th).sum := by
  apply List.sum_nonneg
  intro x hx
  obtain ⟨k, hk, rfl⟩ := List.mem_map.1 hx
  exact (h k hk).le

theorem sineSum_nonneg {φ : ℝ} {T : List Nat} (h0 : 0 ≤ φ) (hT : φ + (T.map th).sum ≤ π)
    (ht : ∀ k ∈ T, 0 < th k) (hl : ∀ k ∈ T, 0 ≤ lam k) : 0 ≤ sineSum lam th φ T := by
  induction T generalizing φ with
  | nil => simp [sineSum]
  | cons k T ih =>
    simp only [List.map_cons, List.sum_cons] at hT
    have h1 := ht k (by simp)
    have h2 := sum_nonneg_of (T := T) (fun k hk => ht k (by simp [hk]))
    have h3 : 0 ≤ sin (φ + th k) := sin_nonneg_of_nonneg_of_le_pi (by linarith) (by linarith)
    have h4 := ih (φ := φ + th k) (by linarith) (by linarith) (fun k hk => ht k (by simp [hk]))
      (fun k hk => hl k (by simp [hk]))
    have h5 := mul_nonneg (hl k (by simp)) h3
    simp only [sineSum]
    linarith

theorem sineSum_nonpos {φ : ℝ} {T : List Nat} (h0 : π ≤ φ) (hT : φ + (T.map th).sum ≤ 2 * π)
    (ht : ∀ k ∈ T, 0 < th k) (hl : ∀ k ∈ T, 0 ≤ lam k) : sineSum lam th φ T ≤ 0 := by
  induction T generalizing φ with
  | nil => simp [sineSum]
  | cons k T ih =>
    simp only [List.map_cons, List.sum_cons] at hT
    have h1 := ht k (by simp)
    have h2 := sum_nonneg_of (T := T) (fun k hk => ht k (by simp [hk]))
    have h3 : sin (φ + th k) ≤ 0 := by
      rw [← sin_sub_two_pi]
      exact sin_nonpos_of_nonpos_of_neg_pi_le (by linarith) (by linarith)
    have h4 := ih (φ := φ + th k) (by linarith) (by linarith) (fun k hk => ht k (by simp [hk]))
      (fun k hk => hl k (by simp [hk]))
    have h5 := mul_nonpos_of_nonneg_of_nonpos (hl k (by simp)) h3
    simp only [sineSum]
    linarith

/-- the beginnings of a sum of this kind that vanishes are not negative -/
theorem sineSum_prefix {T U : List Nat} (hT : ((T ++ U).map th).sum ≤ 2 * π)
    (ht : ∀ k ∈ T ++ U, 0 < th k) (hl : ∀ k ∈ T ++ U, 0 ≤ lam k)
    (hz : sineSum lam th 0 (T ++ U) = 0) : 0 ≤ sineSum lam th 0 T := by
  rw [sineSum_append, zero_add] at hz
  simp only [List.map_append, List.sum_append] at hT
  have hU := sum_nonneg_of (T := U) (fun k hk => ht k (by simp [hk]))
  by_cases h : (T.map th).sum ≤ π
  · exact sineSum_nonneg le_rfl (by linarith) (fun k hk => ht k (by simp [hk]))
      (fun k hk => hl k (by simp [hk]))
  · have := sineSum_nonpos (lam := lam) (th := th) (φ := (T.map th).sum) (T := U) (by linarith)
      (by linarith) (fun k hk => ht k (by simp [hk])) (fun k hk => hl k (by simp [hk]))
    linarith

/-- if the angles stay in a half turn and the sum vanishes, each term does -/
theorem sineSum_zero {φ : ℝ} {T U : List Nat} {k : Nat} (h0 : 0 ≤ φ)
    (hT : φ + ((T ++ k :: U).map th).sum ≤ π)
    (ht : ∀ j ∈ T ++ k :: U, 0 < th j) (hl : ∀ j ∈ T ++ k :: U, 0 ≤ lam j)
    (hz : sineSum lam th φ (T ++ k :: U) = 0) :
    lam k * sin (φ + (T.map th).sum + th k) = 0 := by
  rw [sineSum_append] at hz
  simp only [List.map_append, List.sum_append, List.map_cons, List.sum_cons] at hT
  have hT0 := sum_nonneg_of (T := T) (fun k hk => ht k (by simp [hk]))
  have hU := sum_nonneg_of (T := U) (fun k hk => ht k (by simp [hk]))
  have hk := ht k (by simp)
  have h1 := sineSum_nonneg (lam := lam) (th := th) (T := T) h0 (by linarith)
    (fun k hk => ht k (by simp [hk])) (fun k hk => hl k (by simp [hk]))
  have h2 := sineSum_nonneg (lam := lam) (th := th) (T := U) (φ := φ + (T.map th).sum + th k)
    (by linarith) (by linarith)
    (fun k hk => ht k (by simp [hk])) (fun k hk => hl k (by simp [hk]))
  have h3 : 0 ≤ sin (φ + (T.map th).sum + th k) :=
    sin_nonneg_of_nonneg_of_le_pi (by linarith) (by linarith)
  have h4 := mul_nonneg (hl k (by simp)) h3
  simp only [sineSum] at hz
  linarith

/-! ### Closed chains -/

/-- from `k` one gets to `j` by going `lam k` in the direction of `k`; the direction of `j` is turned
left by `th j` -/
def ChainStep (y n : Nat → V2 ℝ) (lam th : Nat → ℝ) (k j : Nat) : Prop :=
  y j = along (y k) (n k) (lam k) ∧ ∃ p, n k = unitDir p ∧ n j = unitDir (p + th j)

variable {y n : Nat → V2 ℝ}

theorem height_trans (v a b c : V2 ℝ) : height a v c = height a v b + height b v c := by
  simp only [height]; ring

theorem chain_height {a z : Nat} {T : List Nat} {ψ : ℝ} (ψ0 : ℝ)
    (h : (a :: T ++ [z]).IsChain (ChainStep y n lam th)) (ha : n a = unitDir ψ) :
    height (y a) (unitDir ψ0) (y z) =
      lam a * sin (ψ - ψ0) + sineSum lam th (ψ - ψ0) T := by
  induction T generalizing a ψ with
  | nil =>
    simp only [List.cons_append, List.nil_append, List.isChain_cons_cons,
      List.isChain_singleton, and_true] at h
    rw [h.1, ha]
    simp only [height, along, unitDir, sineSum, sin_sub]
    ring
  | cons c T ih =>
    simp only [List.cons_append, List.isChain_cons_cons] at h
    obtain ⟨⟨h1, p, h2, h3⟩, h4⟩ := h
    rw [ha] at h2
    have hc : n c = unitDir (ψ + th c) := by rw [h3, unitDir_add h2]
    rw [height_trans _ _ (y c), ih (by simpa using h4) hc, h1, ha]
    simp only [sineSum]
    rw [show ψ + th c - ψ0 = ψ - ψ0 + th c by ring]
    simp only [height, along, unitDir, sin_sub]
    ring

/-- a chain that turns left once around, and ends where it starts -/
structure Around (y n : Nat → V2 ℝ) (lam th : Nat → ℝ) (a : Nat) (T : List Nat) : Prop where
  chain : (a :: T ++ [a]).IsChain (ChainStep y n lam th)
  pos : ∀ k ∈ a :: T, 0 < th k
  nonneg : ∀ k ∈ a :: T, 0 ≤ lam k
  total : ((a :: T).map th).sum = 2 * π

theorem Around.dir {a : Nat} {T : List Nat} (h : Around y n lam th a T) : ∃ ψ, n a = unitDir ψ := by
  cases T with
  | nil =>
    have := h.chain
    simp only [List.cons_append, List.nil_append, List.isChain_cons_cons,
      List.isChain_singleton, and_true] at this
    obtain ⟨-, p, hp, -⟩ := this
    exact ⟨p, hp⟩
  | cons c T =>
    have := h.chain
    simp only [List.cons_append, List.isChain_cons_cons] at this
    obtain ⟨⟨-, p, hp, -⟩, -⟩ := this
    exact ⟨p, hp⟩

/-- the whole chain lies to the left of each of its edges -/
theorem Around.left {a : Nat} {T : List Nat} (h : Around y n lam th a T) {k : Nat} (hk : k ∈ T) :
    0 ≤ height (y a) (n a) (y k) := by
  obtain ⟨ψ, hψ⟩ := h.dir
  obtain ⟨T1, T2, rfl⟩ := List.append_of_mem hk
  have hz := chain_height (ψ0 := ψ) h.chain hψ
  have hc1 : (a :: T1 ++ [k]).IsChain (ChainStep y n lam th) := by
    have := h.chain
    have e : a :: (T1 ++ k :: T2) ++ [a] = (a :: T1) ++ k :: (T2 ++ [a]) := by simp
    rw [e, List.isChain_split] at this
    exact this.1
  have hk' := chain_height (ψ0 := ψ) hc1 hψ
  have htot := h.total
  simp only [List.map_cons, List.sum_cons] at htot
  have ha := h.pos a (by simp)
  rw [hψ, hk']
  have h0 : height (y a) (unitDir ψ) (y a) = 0 := by simp [height]
  rw [h0] at hz
  simp only [sub_self, sin_zero, mul_zero, zero_add] at hz ⊢
  refine sineSum_prefix (U := k :: T2) (by linarith) (fun j hj => h.pos j (by simp at hj ⊢; tauto))
    (fun j hj => h.nonneg j (by simp at hj ⊢; tauto)) hz.symm

/-- if the chain makes a half turn or more at one place, then it does not move except before and
after that place -/
theorem Around.flat {a z : Nat} {T : List Nat} (h : Around y n lam th a (T ++ [z]))
    (ha : π ≤ th a) :
    (∀ k ∈ T, lam k = 0) ∧ (π < th a → lam z = 0 ∧ lam a = 0) := by
  obtain ⟨ψ, hψ⟩ := h.dir
  have hz := chain_height (ψ0 := ψ) h.chain hψ
  have h0 : ∀ v, height (y a) v (y a) = 0 := by simp [height]
  rw [h0] at hz
  simp only [sub_self, sin_zero, mul_zero, zero_add] at hz
  have htot := h.total
  simp only [List.map_cons, List.sum_cons] at htot
  have hpos : ∀ j ∈ T ++ [z], 0 < th j := fun j hj => h.pos j (List.mem_cons_of_mem _ hj)
  have hnn : ∀ j ∈ T ++ [z], 0 ≤ lam j := fun j hj => h.nonneg j (List.mem_cons_of_mem _ hj)
  have hzpos := hpos z (by simp)
  have hT : ∀ k ∈ T, lam k = 0 := by
    intro k hk
    obtain ⟨T1, T2, rfl⟩ := List.append_of_mem hk
    have e : T1 ++ k :: T2 ++ [z] = T1 ++ k :: (T2 ++ [z]) := by simp
    rw [e] at hz htot hpos hnn
    have hm := sineSum_zero (φ := 0) le_rfl (by linarith) hpos hnn hz.symm
    rw [zero_add] at hm
    simp only [List.map_append, List.sum_append, List.map_cons, List.sum_cons, List.map_nil,
      List.sum_nil] at htot
    have hT1 := sum_nonneg_of (T := T1) (fun k hk => hpos k (by simp [hk]))
    have hT2 := sum_nonneg_of (T := T2) (fun k hk => hpos k (by simp [hk]))
    have hkp := hpos k (by simp)
    have : 0 < sin ((T1.map th).sum + th k) := sin_pos_of_pos_of_lt_pi (by linarith) (by linarith)
    rcases mul_eq_zero.1 hm with h' | h'
    · exact h'
    · exact absurd h' this.ne'
  refine ⟨hT, fun hap => ?_⟩
  have hm := sineSum_zero (T := T) (U := []) (φ := 0) le_rfl (by linarith) hpos hnn hz.symm
  rw [zero_add] at hm
  simp only [List.map_append, List.sum_append, List.map_cons, List.sum_cons, List.map_nil,
    List.sum_nil] at htot
  have hT1 := sum_nonneg_of (T := T) (fun k hk => hpos k (by simp [hk]))
  have hs : 0 < sin ((T.map th).sum + th z) := sin_pos_of_pos_of_lt_pi (by linarith) (by linarith)
  have hlz : lam z = 0 := by
    rcases mul_eq_zero.1 hm with h' | h'
    · exact h'
    · exact absurd h' hs.ne'
  refine ⟨hlz, ?_⟩
  have hz2 := chain_height (ψ0 := ψ - π / 2) h.chain hψ
  rw [h0] at hz2
  have hzero : ∀ (φ : ℝ) (U : List Nat), (∀ k ∈ U, lam k = 0) → sineSum lam th φ U = 0 := by
    intro φ U
    induction U generalizing φ with
    | nil => intro _; rfl
    | cons k U ih =>
      intro hU
      simp only [sineSum]
      rw [hU k (by simp), ih _ (fun k hk => hU k (by simp [hk]))]
      simp
  rw [hzero _ _ (by
    intro k hk
    rcases List.mem_append.1 hk with hk | hk
    · exact hT k hk
    · simp at hk; rw [hk, hlz])] at hz2
  rw [show ψ - (ψ - π / 2) = π / 2 by ring, sin_pi_div_two] at hz2
  linarith

/-! ### Two neighbours -/

/-- how fast an edge gets shorter at a corner that turns by `x` -/
noncomputable def kap (x : ℝ) : ℝ := tan (x / 2)

theorem kap_sin {x : ℝ} (h0 : 0 < x) (h1 : x < π) : kap x * sin x = 1 - cos x := by
  have hc : 0 < cos (x / 2) := cos_pos_of_mem_Ioo ⟨by linarith, by linarith⟩
  have e1 : sin x = 2 * sin (x / 2) * cos (x / 2) := by
    rw [← sin_two_mul]; congr 1; ring
  have e2 : cos x = 1 - 2 * sin (x / 2) ^ 2 := by
    have := cos_two_mul (x / 2)
    rw [show 2 * (x / 2) = x by ring] at this
    have h2 := sin_sq_add_cos_sq (x / 2)
    linarith
  rw [kap, tan_eq_sin_div_cos, e1, e2]
  field_simp
  ring

theorem kap_pos {x : ℝ} (h0 : 0 < x) (h1 : x < π) : 0 < kap x :=
  tan_pos_of_pos_of_lt_pi_div_two (by linarith) (by linarith)

theorem kap_mono {x x' : ℝ} (h0 : 0 < x) (h : x ≤ x') (h1 : x' < π) : kap x ≤ kap x' := by
  rcases h.lt_or_eq with h | h
  · exact (tan_lt_tan_of_lt_of_lt_pi_div_two (by linarith) (by linarith) (by linarith)).le
  · rw [h]

open Classical in
/-- the time until two neighbours meet, when the edge between them has length `l` and they turn by `α`
and `β` -/
noncomputable def gain (l α β : ℝ) : ℝ :=
  if l = 0 ∨ π ≤ α ∨ π ≤ β then 0 else l / (kap α + kap β)

theorem gain_nonneg {l α β : ℝ} (hl : 0 ≤ l) (ha : 0 < α) (hb : 0 < β) : 0 ≤ gain l α β := by
  unfold gain
  split
  · exact le_rfl
  · rename_i h
    simp only [not_or, not_le] at h
    have := kap_pos ha h.2.1
    have := kap_pos hb h.2.2
    positivity

theorem gain_pos {l α β : ℝ} (hl : 0 ≤ l) (hg : 0 < gain l α β) : 0 < l ∧ α < π ∧ β < π := by
  unfold gain at hg
  split at hg
  · exact absurd hg (lt_irrefl _)
  · rename_i h
    simp only [not_or, not_le] at h
    exact ⟨lt_of_le_of_ne hl (Ne.symm h.1), h.2.1, h.2.2⟩

/-- sharper corners meet earlier -/
theorem gain_mono {l α β α' β' : ℝ} (hl : 0 ≤ l) (ha : 0 < α) (hb : 0 < β) (h1 : α ≤ α')
    (h2 : β ≤ β') : gain l α' β' ≤ gain l α β := by
  by_cases h : l = 0 ∨ π ≤ α' ∨ π ≤ β'
  · rw [gain, if_pos h]
    exact gain_nonneg hl ha hb
  · simp only [not_or, not_le] at h
    have hn : ¬ (l = 0 ∨ π ≤ α ∨ π ≤ β) := by
      simp only [not_or, not_le]; exact ⟨h.1, by linarith, by linarith⟩
    rw [gain, gain, if_neg hn, if_neg (by simp only [not_or, not_le]; exact h)]
    have k1 := kap_pos ha (by linarith : α < π)
    have k2 := kap_pos hb (by linarith : β < π)
    have k3 := kap_mono ha h1 h.2.1
    have k4 := kap_mono hb h2 h.2.2
    apply div_le_div_of_nonneg_left hl (by linarith) (by linarith)

/-- a vector is known by its components along and across a direction -/
theorem eq_of_components (φ : ℝ) {a b : V2 ℝ} (h1 : cr (unitDir φ) a = cr (unitDir φ) b)
    (h2 : dt (unitDir φ) a = dt (unitDir φ) b) : a = b := by
  obtain ⟨ax, ay⟩ := a
  obtain ⟨bx, by'⟩ := b
  simp only [cr, dt, unitDir] at h1 h2
  have h := sin_sq_add_cos_sq φ
  rw [V2.mk.injEq]
  constructor
  · linear_combination cos φ * h2 - sin φ * h1 - (ax - bx) * h
  · linear_combination sin φ * h2 + cos φ * h1 - (ay - by') * h

/-- the bisector of a corner that turns by `α` into the direction `φ`, seen from that direction -/
theorem bis_in (φ α : ℝ) : cr (unitDir φ) (V2.sub (unitDir φ) (unitDir (φ - α))) = sin α ∧
    dt (unitDir φ) (V2.sub (unitDir φ) (unitDir (φ - α))) = 1 - cos α := by
  have h := sin_sq_add_cos_sq φ
  have e1 := sin_sub φ (φ - α)
  have e2 := cos_sub φ (φ - α)
  rw [show φ - (φ - α) = α by ring] at e1 e2
  simp only [cr, dt, unitDir, V2.sub, ex_sub, ex_rnd]
  constructor
  · linear_combination -e1
  · linear_combination h + e2

/-- the bisector of a corner that turns by `β` from the direction `φ`, seen from that direction -/
theorem bis_out (φ β : ℝ) : cr (unitDir φ) (V2.sub (unitDir (φ + β)) (unitDir φ)) = sin β ∧
    dt (unitDir φ) (V2.sub (unitDir (φ + β)) (unitDir φ)) = cos β - 1 := by
  have h := sin_sq_add_cos_sq φ
  have e1 := sin_sub (φ + β) φ
  have e2 := cos_sub (φ + β) φ
  rw [show φ + β - φ = β by ring] at e1 e2
  simp only [cr, dt, unitDir, V2.sub, ex_sub, ex_rnd]
  constructor
  · linear_combination -e1
  · linear_combination -h - e2

theorem not_parallel {φ α β : ℝ} (ha : 0 < α) (hb : 0 < β) (hab : α + β < 2 * π) :
    ¬ Parallel (V2.sub (unitDir φ) (unitDir (φ - α))) (V2.sub (unitDir (φ + β)) (unitDir φ)) := by
  intro h
  have hc := bisector_cross (p := φ - α) (a := α) (b := β) (q := φ) (by congr 1; ring)
  have h1 : 0 < sin (α / 2) := sin_pos_of_pos_of_lt_pi (by linarith) (by linarith)
  have h2 : 0 < sin (β / 2) := sin_pos_of_pos_of_lt_pi (by linarith) (by linarith)
  have h3 : 0 < sin ((α + β) / 2) := sin_pos_of_pos_of_lt_pi (by linarith) (by linarith)
  have h4 := mul_pos (mul_pos h1 h2) h3
  simp only [Parallel, V2.sub, unitDir, ex_sub, ex_rnd] at h
  rw [show φ - α + α = φ by ring] at hc
  nlinarith

/-- where the bisectors of two neighbours meet -/
theorem meet {φ α β l : ℝ} (ha : 0 < α) (hb : 0 < β) (hab : α + β < 2 * π) (hl : 0 ≤ l)
    (hbig : π < α ∨ π < β → l = 0) {ya yb da db : V2 ℝ} (hda : da = V2.sub (unitDir φ) (unitDir (φ - α)))
    (hdb : db = V2.sub (unitDir (φ + β)) (unitDir φ)) (hy : yb = along ya (unitDir φ) l) :
    ∃ u w, 0 ≤ u ∧ 0 ≤ w ∧ along ya da u = along yb db w ∧ u * sin α = gain l α β ∧
      w * sin β = gain l α β ∧ (l = 0 ∨ π ≤ α → w = 0) ∧ (l = 0 ∨ π ≤ β → u = 0) := by
  have key : ∀ u w, u * sin α = w * sin β → u * (1 - cos α) + w * (1 - cos β) = l →
      along ya da u = along yb db w := by
    intro u w h1 h2
    obtain ⟨a1, a2⟩ := bis_in φ α
    obtain ⟨b1, b2⟩ := bis_out φ β
    rw [← hda] at a1 a2
    rw [← hdb] at b1 b2
    have h := sin_sq_add_cos_sq φ
    refine eq_of_components φ ?_ ?_
    · rw [hy]
      simp only [cr, along] at a1 b1 ⊢
      simp only [unitDir] at a1 b1 ⊢
      linear_combination u * a1 - w * b1 + h1
    · rw [hy]
      simp only [dt, along] at a2 b2 ⊢
      simp only [unitDir] at a2 b2 ⊢
      linear_combination u * a2 - w * b2 + h2 - l * h
  by_cases h0 : l = 0
  · refine ⟨0, 0, le_rfl, le_rfl, key 0 0 (by ring) (by rw [h0]; ring), ?_, ?_, fun _ => rfl, fun _ => rfl⟩
    · rw [gain, if_pos (Or.inl h0)]; ring
    · rw [gain, if_pos (Or.inl h0)]; ring
  have hα : α ≤ π := by
    by_contra hc
    exact h0 (hbig (Or.inl (by linarith)))
  have hβ : β ≤ π := by
    by_contra hc
    exact h0 (hbig (Or.inr (by linarith)))
  rcases hα.lt_or_eq with hα | hα
  · rcases hβ.lt_or_eq with hβ | hβ
    · -- both turn by less than a half turn
      have k1 := kap_pos ha hα
      have k2 := kap_pos hb hβ
      have e1 := kap_sin ha hα
      have e2 := kap_sin hb hβ
      have s1 := sin_pos_of_pos_of_lt_pi ha hα
      have s2 := sin_pos_of_pos_of_lt_pi hb hβ
      have hg : gain l α β = l / (kap α + kap β) := by
        rw [gain, if_neg (by simp only [not_or, not_le]; exact ⟨h0, hα, hβ⟩)]
      have hg' : gain l α β * (kap α + kap β) = l := by rw [hg]; field_simp
      have hgn := gain_nonneg hl ha hb
      refine ⟨gain l α β / sin α, gain l α β / sin β, by positivity, by positivity,
        key _ _ ?_ ?_, by field_simp, by field_simp, ?_, ?_⟩
      · field_simp
      · rw [← e1, ← e2]
        field_simp
        linarith
      · rintro (h | h)
        · exact absurd h h0
        · linarith
      · rintro (h | h)
        · exact absurd h h0
        · linarith
    · -- the second makes a half turn
      have hg : gain l α β = 0 := by rw [gain, if_pos (Or.inr (Or.inr hβ.ge))]
      refine ⟨0, l / 2, le_rfl, by positivity, key _ _ ?_ ?_, by rw [hg]; ring, ?_, ?_, fun _ => rfl⟩
      · rw [hβ, sin_pi]; ring
      · rw [hβ, cos_pi]; ring
      · rw [hg, hβ, sin_pi]; ring
      · rintro (h | h)
        · exact absurd h h0
        · linarith
  · -- the first makes a half turn
    have hg : gain l α β = 0 := by rw [gain, if_pos (Or.inr (Or.inl hα.ge))]
    refine ⟨l / 2, 0, by positivity, le_rfl, key _ _ ?_ ?_, ?_, by rw [hg]; ring, fun _ => rfl, ?_⟩
    · rw [hα, sin_pi]; ring
    · rw [hα, cos_pi]; ring
    · rw [hg, hα, sin_pi]; ring
    · rintro (h | h)
      · exact absurd h h0
      · linarith

/-- the edge between two neighbours after they have moved for the time `δ` -/
theorem advance {φ α β l δ : ℝ} (ha : 0 < α) (hb : 0 < β) (hα : α < π) (hβ : β < π)
    {ya yb da db : V2 ℝ} (hda : da = V2.sub (unitDir φ) (unitDir (φ - α)))
    (hdb : db = V2.sub (unitDir (φ + β)) (unitDir φ)) (hy : yb = along ya (unitDir φ) l) :
    along yb db (δ / sin β) = along (along ya da (δ / sin α)) (unitDir φ)
      (l - δ * (kap α + kap β)) := by
  obtain ⟨a1, a2⟩ := bis_in φ α
  obtain ⟨b1, b2⟩ := bis_out φ β
  rw [← hda] at a1 a2
  rw [← hdb] at b1 b2
  have h := sin_sq_add_cos_sq φ
  have e1 := kap_sin ha hα
  have e2 := kap_sin hb hβ
  have s1 := sin_pos_of_pos_of_lt_pi ha hα
  have s2 := sin_pos_of_pos_of_lt_pi hb hβ
  have f1 : δ / sin α * sin α = δ := by field_simp
  have f2 : δ / sin β * sin β = δ := by field_simp
  have g1 : δ / sin α * (1 - cos α) = δ * kap α := by rw [← e1]; field_simp
  have g2 : δ / sin β * (1 - cos β) = δ * kap β := by rw [← e2]; field_simp
  refine eq_of_components φ ?_ ?_
  · rw [hy]
    simp only [cr, along] at a1 b1 ⊢
    simp only [unitDir] at a1 b1 ⊢
    linear_combination δ / sin β * b1 - δ / sin α * a1 + f2 - f1
  · rw [hy]
    simp only [dt, along] at a2 b2 ⊢
    simp only [unitDir] at a2 b2 ⊢
    linear_combination δ / sin β * b2 - δ / sin α * a2 - g2 - g1 + δ * (kap α + kap β) * h

theorem gain_advance {l α β δ : ℝ} (hl : 0 < l) (ha : 0 < α) (hb : 0 < β) (hα : α < π) (hβ : β < π)
    (h : δ ≤ gain l α β) : 0 ≤ l - δ * (kap α + kap β) := by
  rw [gain, if_neg (by simp only [not_or, not_le]; exact ⟨hl.ne', hα, hβ⟩)] at h
  have k1 := kap_pos ha hα
  have k2 := kap_pos hb hβ
  have : δ * (kap α + kap β) ≤ l := by
    rw [le_div_iff₀ (by linarith)] at h
    exact h
  linarith

/-- what is far enough from the edges before and after a third one is so from this one, if the third
one lies between them and all three have the distance `t` at a point -/
theorem middle {p α β t u : ℝ} (ha : 0 < α) (hb : 0 < β) (hab : α + β < π) (htu : t ≤ u)
    {X P : V2 ℝ} (h1 : u - t ≤ height X (unitDir p) P)
    (h2 : u - t ≤ height X (unitDir (p + α + β)) P) :
    u - t ≤ height X (unitDir (p + α)) P := by
  have s1 := sin_pos_of_pos_of_lt_pi ha (by linarith)
  have s2 := sin_pos_of_pos_of_lt_pi hb (by linarith)
  have s3 := sin_pos_of_pos_of_lt_pi (x := α + β) (by linarith) hab
  have hid : sin (α + β) * height X (unitDir (p + α)) P =
      sin β * height X (unitDir p) P + sin α * height X (unitDir (p + α + β)) P := by
    have q1 := sin_sq_add_cos_sq α
    have q2 := sin_sq_add_cos_sq β
    have q3 := sin_sq_add_cos_sq p
    simp only [height, unitDir, sin_add, cos_add]
    generalize P.y - X.y = Y
    generalize P.x - X.x = Z
    linear_combination (Y * sin β * cos p - Z * sin β * sin p) * q1
  have hsum : sin (α + β) ≤ sin α + sin β := by
    rw [sin_add]
    nlinarith [cos_le_one α, cos_le_one β]
  have m1 := mul_le_mul_of_nonneg_left h1 s2.le
  have m2 := mul_le_mul_of_nonneg_left h2 s1.le
  have m3 := mul_le_mul_of_nonneg_right hsum (sub_nonneg.2 htu)
  have : sin (α + β) * (u - t) ≤ sin (α + β) * height X (unitDir (p + α)) P := by
    rw [hid]
    nlinarith
  exact le_of_mul_le_mul_left this s3

end Polyskel
