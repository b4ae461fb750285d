import Verif.MPEmp.Props
import Verif.MPEmp.Examples
import Verif.MPPar.Props
import Verif.MPPar.Examples
import Verif.LS.Examples
import Verif.SNN.Props
import Verif.SNN.SimhubProps

/-!
# What happens if one distance grows

C215: if two objects move away from each other while all other distances stay the same, their secondary distance does not
decrease for Mutual Proximity (empirical and Gaussian), Local Scaling and NICDM, although means, standard deviations and
radii change as well. For shared nearest neighbours and `simhub` it may drop, even from the largest to the smallest value.
-/

set_option autoImplicit false

namespace HubToolbox.Spec

/-- `y` is the symmetric matrix `x` with a larger value (in the sense of `le`) for the objects `a` and `b`. -/
structure Raised {α : Type} (le : α → α → Prop) {n : ℕ} (x y : Fin n → Fin n → α) (a b : Fin n) : Prop where
  symm : ∀ i j, x i j = x j i
  symm' : ∀ i j, y i j = y j i
  le : le (x a b) (y a b)
  rest : ∀ i j, ¬ (i = a ∧ j = b) → ¬ (i = b ∧ j = a) → y i j = x i j

theorem Raised.swap {α : Type} {le : α → α → Prop} {n : ℕ} {x y : Fin n → Fin n → α} {a b : Fin n} (h : Raised le x y a b) :
    Raised le x y b a :=
  ⟨h.symm, h.symm', by rw [h.symm b a, h.symm' b a]; exact h.le, fun i j h1 h2 => h.rest i j h2 h1⟩

/-- Other entries of the row. -/
theorem Raised.row {α : Type} {le : α → α → Prop} {n : ℕ} {x y : Fin n → Fin n → α} {a b : Fin n} (h : Raised le x y a b)
    (hab : a ≠ b) (c : Fin n) (hc : c ≠ b) : y a c = x a c :=
  h.rest a c (fun h' => hc h'.2) (fun h' => hab h'.1)

theorem Raised.le_all {n : ℕ} {x y : Fin n → Fin n → ℝ} {a b : Fin n} (h : Raised (· ≤ ·) x y a b) (i j : Fin n) :
    x i j ≤ y i j := by
  by_cases h1 : i = a ∧ j = b
  · obtain ⟨rfl, rfl⟩ := h1; exact h.le
  · by_cases h2 : i = b ∧ j = a
    · obtain ⟨rfl, rfl⟩ := h2; exact h.swap.le
    · exact (h.rest i j h1 h2).ge

/-- No entry grows by a larger factor. -/
theorem Raised.factor {n : ℕ} {x y : Fin n → Fin n → ℝ} {a b : Fin n} (h : Raised (· ≤ ·) x y a b) (h0 : ∀ i j, 0 ≤ x i j)
    (hd : 0 < x a b) (i j : Fin n) : y i j ≤ y a b / x a b * x i j := by
  have h1 : 1 ≤ y a b / x a b := (one_le_div hd).2 h.le
  by_cases hi : i = a ∧ j = b
  · obtain ⟨rfl, rfl⟩ := hi
    rw [div_mul_cancel₀ _ hd.ne']
  · by_cases h2 : i = b ∧ j = a
    · obtain ⟨rfl, rfl⟩ := h2
      rw [h.symm i j, h.symm' i j, div_mul_cancel₀ _ hd.ne']
    · rw [h.rest i j hi h2]
      exact le_mul_of_one_le_left (h0 i j) h1

end HubToolbox.Spec

namespace HubToolbox.MPEmp

open HubToolbox HubToolbox.Spec

variable {K : Type} [Field K] [LinearOrder K] [IsStrictOrderedRing K]

omit [Field K] [IsStrictOrderedRing K] in
theorem flt_of_fle_flt {a b c : XR K} (h : XR.fle a b) (h' : XR.flt b c) : XR.flt a c := by
  cases a <;> cases b <;> cases c <;> simp_all [XR.fle, XR.flt]
  exact lt_of_le_of_lt h h'

omit [Field K] [IsStrictOrderedRing K] in
theorem fle_of_fle_fle {a b c : XR K} (h : XR.fle a b) (h' : XR.fle b c) : XR.fle a c := by
  cases a <;> cases b <;> cases c <;> simp_all [XR.fle]
  exact h.trans h'

/-- **C215** (empirical Mutual Proximity). -/
theorem C215_mp (order order' : Order K) {n : ℕ} (D D' : Fin n → Fin n → XR K) (metric : String)
    (test test' : Option TestArg) (minNnz minNnz' : ℤ) (M M' : Fin n → Fin n → K)
    (h : full order (.obj (.mat false n n D)) metric test minNnz = .ok (.dense n M))
    (h' : full order' (.obj (.mat false n n D')) metric test' minNnz' = .ok (.dense n M')) (a b : Fin n) (hab : a ≠ b)
    (hr : Raised XR.fle D D' a b) :
    (metric = "distance" → M a b ≤ M' a b) ∧ (metric = "similarity" → D' a b ≠ .pinf → M a b ≤ M' a b) := by
  have hn : (0 : K) ≤ n := Nat.cast_nonneg n
  constructor
  · intro hm
    rw [(C21_computes_definition order D false metric test minNnz M h hr.symm a b).1 hm,
      (C21_computes_definition order' D' false metric test' minNnz' M' h' hr.symm' a b).1 hm, mpDistance, mpDistance,
      if_neg hab, if_neg hab]
    have hs : farther D' a b ⊆ farther D a b := by
      intro x hx
      simp only [farther, Finset.mem_filter, Finset.mem_univ, true_and] at hx ⊢
      obtain ⟨h1, h2, h3, h4⟩ := hx
      rw [hr.row hab x h2] at h3
      rw [hr.swap.row hab.symm x h1] at h4
      exact ⟨h1, h2, flt_of_fle_flt hr.le h3, flt_of_fle_flt hr.le h4⟩
    have hc : ((farther D' a b).card : K) ≤ (farther D a b).card := by exact_mod_cast Finset.card_le_card hs
    have := div_le_div_of_nonneg_right hc hn
    linarith
  · intro hm hp
    have hp' : D a b ≠ .pinf := by
      intro e
      have := hr.le
      rw [e] at this
      cases h2 : D' a b <;> simp_all [XR.fle]
    rw [(C21_computes_definition order D false metric test minNnz M h hr.symm a b).2 hm hp',
      (C21_computes_definition order' D' false metric test' minNnz' M' h' hr.symm' a b).2 hm hp, mpSimilarity, mpSimilarity,
      if_neg hab, if_neg hab]
    have hs : lessSimilar D a b ⊆ lessSimilar D' a b := by
      intro x hx
      simp only [lessSimilar, Finset.mem_filter, Finset.mem_univ, true_and] at hx ⊢
      obtain ⟨h1, h2, h3, h4⟩ := hx
      rw [hr.row hab x h2, hr.swap.row hab.symm x h1]
      exact ⟨h1, h2, fle_of_fle_fle h3 hr.le, fle_of_fle_fle h4 hr.le⟩
    have hc : ((lessSimilar D a b).card : K) ≤ (lessSimilar D' a b).card := by exact_mod_cast Finset.card_le_card hs
    exact div_le_div_of_nonneg_right hc hn

end HubToolbox.MPEmp

namespace HubToolbox.MPPar

open HubToolbox

/-- Studentised values grow with the value. -/
theorem ratio_mono {V c : ℝ} (hV : 0 ≤ V) (hc : 0 < c) : Monotone (fun t : ℝ => t / √(V + c * t ^ 2)) := by
  have key : ∀ x y : ℝ, 0 ≤ x → x ≤ y → x / √(V + c * x ^ 2) ≤ y / √(V + c * y ^ 2) := by
    intro x y hx hxy
    rcases hx.eq_or_lt with rfl | hx'
    · rw [zero_div]
      exact div_nonneg hxy (Real.sqrt_nonneg _)
    have hy : 0 < y := hx'.trans_le hxy
    have px : 0 < V + c * x ^ 2 := by positivity
    have py : 0 < V + c * y ^ 2 := by positivity
    rw [div_le_div_iff₀ (Real.sqrt_pos.2 px) (Real.sqrt_pos.2 py)]
    refine le_of_sq_le_sq ?_ (by positivity)
    rw [mul_pow, mul_pow, Real.sq_sqrt px.le, Real.sq_sqrt py.le]
    have : x ^ 2 ≤ y ^ 2 := pow_le_pow_left₀ hx hxy 2
    nlinarith
  intro x y hxy
  beta_reduce
  rcases le_total 0 x with h | h
  · exact key x y h hxy
  · rcases le_total 0 y with h' | h'
    · exact (div_nonpos_of_nonpos_of_nonneg h (Real.sqrt_nonneg _)).trans (div_nonneg h' (Real.sqrt_nonneg _))
    · have := key (-y) (-x) (by linarith) (by linarith)
      rw [neg_sq, neg_sq, neg_div, neg_div] at this
      linarith

/-- The standardised value of `b` among the values on `N` in terms of mean and spread of the others. -/
theorem standardised {ι : Type} [DecidableEq ι] (N : Finset ι) (f : ι → ℝ) (b : ι) (hb : b ∈ N) (hN : (N.erase b).Nonempty) :
    (f b - Spec.meanOver N f) / Spec.guard (Spec.stdDev N f) =
      ((N.card : ℝ) - 1) / N.card * √N.card * ((f b - Spec.meanOver (N.erase b) f) /
        √((∑ j ∈ N.erase b, (f j - Spec.meanOver (N.erase b) f) ^ 2) +
          ((N.card : ℝ) - 1) / N.card * (f b - Spec.meanOver (N.erase b) f) ^ 2)) := by
  have hcard : ((N.erase b).card : ℝ) = (N.card : ℝ) - 1 := by
    rw [Finset.card_erase_of_mem hb, Nat.cast_sub (Finset.card_pos.2 ⟨b, hb⟩), Nat.cast_one]
  have hm : (0 : ℝ) < (N.card : ℝ) - 1 := by
    rw [← hcard]; exact_mod_cast Finset.card_pos.2 hN
  obtain ⟨m, hmdef⟩ : ∃ m : ℝ, m = N.card := ⟨_, rfl⟩
  obtain ⟨μ, hμ⟩ : ∃ μ, μ = Spec.meanOver (N.erase b) f := ⟨_, rfl⟩
  obtain ⟨t, ht⟩ : ∃ t, t = f b - μ := ⟨_, rfl⟩
  obtain ⟨V, hVdef⟩ : ∃ V, V = ∑ j ∈ N.erase b, (f j - μ) ^ 2 := ⟨_, rfl⟩
  rw [← hmdef] at hm hcard
  have hm0 : 0 < m := by linarith
  have hsumE : ∑ j ∈ N.erase b, f j = (m - 1) * μ := by
    rw [hμ, Spec.meanOver, hcard]; field_simp
  have hsum : ∑ j ∈ N, f j = m * μ + t := by
    rw [← Finset.add_sum_erase N f hb, hsumE, ht]; ring
  have hmean : Spec.meanOver N f = μ + t / m := by
    rw [Spec.meanOver, hsum, ← hmdef]; field_simp
  have hV : 0 ≤ V := by rw [hVdef]; exact Finset.sum_nonneg (fun _ _ => sq_nonneg _)
  have hvar : Spec.variance N f = (V + (m - 1) / m * t ^ 2) / m := by
    rw [Spec.variance, hmean, ← hmdef, ← Finset.add_sum_erase N _ hb]
    have e : ∑ j ∈ N.erase b, (f j - (μ + t / m)) ^ 2 = V + (m - 1) * (t / m) ^ 2 := by
      have e1 : ∀ j ∈ N.erase b, (f j - (μ + t / m)) ^ 2 = (f j - μ) ^ 2 + (t / m) ^ 2 - 2 * (t / m) * (f j - μ) := by
        intro j _; ring
      rw [Finset.sum_congr rfl e1, Finset.sum_sub_distrib, Finset.sum_add_distrib, Finset.sum_const, nsmul_eq_mul, hcard,
        ← Finset.mul_sum, Finset.sum_sub_distrib, Finset.sum_const, nsmul_eq_mul, hcard, hsumE, ← hVdef]
      ring
    rw [e]
    have e2 : f b - (μ + t / m) = t * (m - 1) / m := by
      rw [show f b = μ + t by rw [ht]; ring]
      field_simp; ring
    rw [e2]
    congr 1
    field_simp
    ring
  have hdev : f b - Spec.meanOver N f = (m - 1) / m * t := by
    rw [hmean, show f b = μ + t by rw [ht]; ring]
    field_simp; ring
  rw [hdev, ← hμ, ← ht, ← hVdef, ← hmdef]
  have hW : 0 ≤ V + (m - 1) / m * t ^ 2 := by positivity
  rcases hW.eq_or_lt with h0 | h0
  · have ht0 : t = 0 := by
      have h1 : 0 ≤ (m - 1) / m * t ^ 2 := by positivity
      have h2 : (m - 1) / m * t ^ 2 = 0 := by linarith
      rcases mul_eq_zero.1 h2 with h3 | h3
      · exact absurd h3 (div_pos hm hm0).ne'
      · exact pow_eq_zero_iff (two_ne_zero) |>.1 h3
    rw [ht0]; simp
  · have hstd : Spec.stdDev N f = √(V + (m - 1) / m * t ^ 2) / √m := by
      rw [Spec.stdDev, hvar, Real.sqrt_div h0.le]
    have hne : Spec.stdDev N f ≠ 0 := by
      rw [hstd]; exact (div_pos (Real.sqrt_pos.2 h0) (Real.sqrt_pos.2 hm0)).ne'
    rw [Spec.guard, if_neg hne, hstd]
    have h1 := (Real.sqrt_pos.2 h0).ne'
    have h2 := (Real.sqrt_pos.2 hm0).ne'
    field_simp

/-- The probability of the distance of `b` grows with this distance, although it enters mean and standard deviation. -/
theorem normalProb_mono (F : Dists) {ι : Type} [DecidableEq ι] (N : Finset ι) (f f' : ι → ℝ) (b : ι)
    (hrest : ∀ j, j ≠ b → f' j = f j) (hle : f b ≤ f' b) :
    Spec.normalProb F.phi N f (f b) ≤ Spec.normalProb F.phi N f' (f' b) := by
  apply F.phi_mono
  have hrestE : ∀ j ∈ N.erase b, f' j = f j := fun j hj => hrest j (Finset.mem_erase.1 hj).1
  have hmE : Spec.meanOver (N.erase b) f' = Spec.meanOver (N.erase b) f := by
    unfold Spec.meanOver; rw [Finset.sum_congr rfl hrestE]
  by_cases hb : b ∈ N
  · by_cases hN : (N.erase b).Nonempty
    · rw [standardised N f b hb hN, standardised N f' b hb hN, hmE,
        Finset.sum_congr rfl (fun j hj => by rw [hrestE j hj] :
          ∀ j ∈ N.erase b, (f' j - Spec.meanOver (N.erase b) f) ^ 2 = (f j - Spec.meanOver (N.erase b) f) ^ 2)]
      have hc : (1 : ℝ) < N.card := by
        have h1 := Finset.card_pos.2 hN
        rw [Finset.card_erase_of_mem hb] at h1
        exact_mod_cast (by omega : 1 < N.card)
      have hc0 : 0 < ((N.card : ℝ) - 1) / N.card := div_pos (by linarith) (by linarith)
      refine mul_le_mul_of_nonneg_left ?_ (mul_nonneg hc0.le (Real.sqrt_nonneg _))
      exact ratio_mono (Finset.sum_nonneg (fun _ _ => sq_nonneg _)) hc0 (sub_le_sub_right hle _)
    · have hN1 : N = {b} := by
        rw [Finset.not_nonempty_iff_eq_empty] at hN
        rw [← Finset.insert_erase hb, hN]; rfl
      have hz : ∀ g : ι → ℝ, g b - Spec.meanOver N g = 0 := by
        intro g; rw [hN1]; simp [Spec.meanOver]
      rw [hz f, hz f', zero_div, zero_div]
  · have hall : ∀ j ∈ N, f' j = f j := fun j hj => hrest j (fun e => hb (e ▸ hj))
    have hm : Spec.meanOver N f' = Spec.meanOver N f := by
      unfold Spec.meanOver; rw [Finset.sum_congr rfl hall]
    have hs : Spec.stdDev N f' = Spec.stdDev N f := by
      unfold Spec.stdDev Spec.variance
      rw [hm, Finset.sum_congr rfl (fun j hj => by rw [hall j hj] :
        ∀ j ∈ N, (f' j - Spec.meanOver N f) ^ 2 = (f j - Spec.meanOver N f) ^ 2)]
    rw [hm, hs]
    refine div_le_div_of_nonneg_right (by linarith) ?_
    unfold Spec.guard
    split
    · positivity
    · exact Real.sqrt_nonneg _

/-- **C215** (Gaussian Mutual Proximity). -/
theorem C215_gaussi (F : Dists) {n : ℕ} (D D' : Fin n → Fin n → ℝ) (metric : String) (hm : Spec.IsMetric metric) (mn mn' : ℤ)
    (test : Option (List ℤ)) (hne : ∀ j, ((Spec.training n test).erase j).Nonempty) (a b : Fin n) (hab : a ≠ b)
    (hr : Spec.Raised (· ≤ ·) D D' a b) :
    ∃ M M' : Fin n → Fin n → ℝ, gaussi F (.mat false n n D) metric 0 mn test none = .ok ⟨n, n, fun i j => .fin (M i j)⟩ ∧
      gaussi F (.mat false n n D') metric 0 mn' test none = .ok ⟨n, n, fun i j => .fin (M' i j)⟩ ∧ M a b ≤ M' a b := by
  obtain ⟨M, hM, hf⟩ := C26_formula F D hr.symm metric hm mn test hne
  obtain ⟨M', hM', hf'⟩ := C26_formula F D' hr.symm' metric hm mn' test hne
  refine ⟨M, M', hM, hM', ?_⟩
  rw [hf a b hab, hf' a b hab]
  have h1 := normalProb_mono F ((Spec.training n test).erase a) (D a) (D' a) b (fun c hc => hr.row hab c hc) hr.le
  have h2 := normalProb_mono F ((Spec.training n test).erase b) (D b) (D' b) a (fun c hc => hr.swap.row hab.symm c hc) hr.swap.le
  rw [hr.symm b a, hr.symm' b a] at h2
  have p0 : ∀ (N : Finset (Fin n)) (f : Fin n → ℝ) (x : ℝ), 0 ≤ Spec.normalProb F.phi N f x ∧ Spec.normalProb F.phi N f x ≤ 1 :=
    fun N f x => ⟨F.phi_nonneg _, F.phi_le_one _⟩
  unfold Spec.mutualProximity
  split
  · exact mul_le_mul h1 h2 (p0 _ _ _).1 (p0 _ _ _).1
  · have := mul_le_mul (sub_le_sub_left h1 1) (sub_le_sub_left h2 1) (by linarith [(p0 ((Spec.training n test).erase b) (D' b) (D' a b)).2])
      (by linarith [(p0 ((Spec.training n test).erase a) (D a) (D a b)).2])
    linarith

end HubToolbox.MPPar

namespace HubToolbox.LS

open HubToolbox

/-- Larger values have larger order statistics. -/
theorem kthSmallest_mono {ι : Type} {S : Finset ι} {f f' : ι → ℝ} {k : ℕ} {ρ ρ' : ℝ} (h : Spec.IsKthSmallest S f k ρ)
    (h' : Spec.IsKthSmallest S f' k ρ') (hle : ∀ j ∈ S, f j ≤ f' j) : ρ ≤ ρ' := by
  by_contra hlt
  rw [not_le] at hlt
  have hs : S.filter (fun j => f' j ≤ ρ') ⊆ S.filter (fun j => f j < ρ) := by
    intro j hj
    rw [Finset.mem_filter] at hj ⊢
    exact ⟨hj.1, ((hle j hj.1).trans hj.2).trans_lt hlt⟩
  have := Finset.card_le_card hs
  have := h.below
  have := h'.upto
  omega

theorem kthSmallest_scale {ι : Type} {S : Finset ι} {f : ι → ℝ} {k : ℕ} {ρ c : ℝ} (hc : 0 < c)
    (h : Spec.IsKthSmallest S f k ρ) : Spec.IsKthSmallest S (fun j => c * f j) k (c * ρ) := by
  obtain ⟨⟨j, hj, hρ⟩, hb, hu⟩ := h
  refine ⟨⟨j, hj, by rw [hρ]⟩, ?_, ?_⟩
  · simpa only [mul_lt_mul_iff_right₀ hc] using hb
  · simpa only [mul_le_mul_iff_right₀ hc] using hu

/-- Larger values have larger means of the nearest. -/
theorem meanOver_mono {ι : Type} [DecidableEq ι] {S : Finset ι} {f f' : ι → ℝ} {k : ℕ} {N N' : Finset ι}
    (h : Spec.IsNearest S f k N) (h' : Spec.IsNearest S f' k N') (hle : ∀ j ∈ S, f j ≤ f' j) :
    Spec.meanOver N f ≤ Spec.meanOver N' f' := by
  unfold Spec.meanOver
  rw [h.card, h'.card]
  refine div_le_div_of_nonneg_right ?_ (Nat.cast_nonneg k)
  have h1 : ∑ j ∈ N', f j ≤ ∑ j ∈ N', f' j := Finset.sum_le_sum (fun j hj => hle j (h'.sub hj))
  refine le_trans ?_ h1
  -- the nearest have the smallest sum
  rw [← Finset.sum_inter_add_sum_sdiff N N' f, ← Finset.sum_inter_add_sum_sdiff N' N f, Finset.inter_comm N' N]
  have hcard : (N \ N').card = (N' \ N).card := by
    have e1 := Finset.card_sdiff_add_card_inter N N'
    have e2 := Finset.card_sdiff_add_card_inter N' N
    rw [Finset.inter_comm] at e2
    rw [h.card] at e1
    rw [h'.card] at e2
    omega
  refine add_le_add le_rfl ?_
  rcases (N \ N').eq_empty_or_nonempty with he | ⟨a, ha⟩
  · have : N' \ N = ∅ := by rw [← Finset.card_eq_zero, ← hcard, he]; rfl
    rw [he, this]
  · obtain ⟨m, hm, hmax⟩ := Finset.exists_max_image (N \ N') f ⟨a, ha⟩
    rw [Finset.mem_sdiff] at hm
    have u := Finset.sum_le_card_nsmul (N \ N') f (f m) hmax
    have l := Finset.card_nsmul_le_sum (N' \ N) f (f m) (fun b hb => by
      rw [Finset.mem_sdiff] at hb
      exact h.best m hm.1 b (h'.sub hb.1) hb.2)
    rw [hcard] at u
    exact u.trans l

theorem nearest_scale {ι : Type} [DecidableEq ι] {S : Finset ι} {f : ι → ℝ} {k : ℕ} {N : Finset ι} {c : ℝ} (hc : 0 < c)
    (h : Spec.IsNearest S f k N) : Spec.IsNearest S (fun j => c * f j) k N ∧
      Spec.meanOver N (fun j => c * f j) = c * Spec.meanOver N f := by
  refine ⟨⟨h.sub, h.card, fun a ha b hb hnb => mul_le_mul_of_nonneg_left (h.best a ha b hb hnb) hc.le⟩, ?_⟩
  unfold Spec.meanOver
  rw [← Finset.mul_sum, mul_div_assoc]

/-- Products of radii grow at most by the square of the factor. -/
theorem product_factor {d d' a a' b b' : ℝ} (hd : 0 < d) (hd' : d ≤ d') (ha : 0 < a) (hb : 0 < b) (hb'' : 0 < b')
    (ha' : a' ≤ d' / d * a) (hb' : b' ≤ d' / d * b) : d ^ 2 * (a' * b') ≤ d' ^ 2 * (a * b) := by
  have h1 : 0 < d' / d := div_pos (hd.trans_le hd') hd
  have h2 : a' * b' ≤ d' / d * a * (d' / d * b) := mul_le_mul ha' hb' hb''.le (by positivity)
  have h3 : d' / d * a * (d' / d * b) = d' ^ 2 * (a * b) / d ^ 2 := by field_simp
  rw [h3, le_div_iff₀ (by positivity)] at h2
  linarith

/-- **C215** (Local Scaling). -/
theorem C215_local_scaling (w w' : World) {n : ℕ} (x y : Fin n → Fin n → ℝ) (h0 : ∀ i j, 0 ≤ x i j) (k : ℕ) (hk : 1 ≤ k)
    (test : Option (List ℤ)) (nJobs nJobs' : ℤ) (hj : nJobs = -1 ∨ 1 ≤ nJobs) (hj' : nJobs' = -1 ∨ 1 ≤ nJobs')
    (r : Fin n → ℝ) (hr : ∀ i, Spec.IsKthSmallest ((Spec.training n test).erase i) (x i) k (r i)) (hpos : ∀ i, 0 < r i)
    (a b : Fin n) (hab : a ≠ b) (hxy : Spec.Raised (· ≤ ·) x y a b) :
    ∃ M M' : Fin n → Fin n → ℝ,
      localScaling w (.mat false n n (toXR x)) k "distance" test nJobs = .ok ⟨n, toXR M⟩ ∧
      localScaling w' (.mat false n n (toXR y)) k "distance" test nJobs' = .ok ⟨n, toXR M'⟩ ∧ M a b ≤ M' a b := by
  have hcard : ∀ i, k ≤ ((Spec.training n test).erase i).card := fun i =>
    (hr i).upto.trans (Finset.card_le_card (Finset.filter_subset _ _))
  obtain ⟨r', hr'⟩ := C28_radii_exist y k hk test hcard
  have hle : ∀ i, r i ≤ r' i := fun i => kthSmallest_mono (hr i) (hr' i) (fun j _ => hxy.le_all i j)
  have hpos' : ∀ i, 0 < r' i := fun i => (hpos i).trans_le (hle i)
  refine ⟨_, _, C28_formula w x hxy.symm k hk test nJobs hj r hr hpos a.pos,
    C28_formula w' y hxy.symm' k hk test nJobs' hj' r' hr' hpos' a.pos, ?_⟩
  beta_reduce
  rw [if_neg hab, if_neg hab]
  unfold Spec.localScaling
  have hp := mul_pos (hpos a) (hpos b)
  have hp' := mul_pos (hpos' a) (hpos' b)
  have hmain : x a b ^ 2 / (r a * r b) ≤ y a b ^ 2 / (r' a * r' b) := by
    rcases (h0 a b).eq_or_lt with h | hd
    · rw [← h]
      have : 0 ≤ y a b ^ 2 / (r' a * r' b) := by positivity
      simpa using this
    · have hf : ∀ i, r' i ≤ y a b / x a b * r i := fun i =>
        kthSmallest_mono (hr' i) (kthSmallest_scale (div_pos (hd.trans_le hxy.le) hd) (hr i))
          (fun j _ => hxy.factor h0 hd i j)
      rw [div_le_div_iff₀ hp hp']
      exact product_factor hd hxy.le (hpos a) (hpos b) (hpos' b) (hf a) (hf b)
  have := Real.exp_le_exp.2 (neg_le_neg hmain)
  linarith

/-- **C215** (NICDM). -/
theorem C215_nicdm (w w' : World) {n : ℕ} (x y : Fin n → Fin n → ℝ) (h0 : ∀ i j, 0 ≤ x i j) (k : ℕ) (hk : 1 ≤ k)
    (test : Option (List ℤ)) (nJobs nJobs' : ℤ) (N : Fin n → Finset (Fin n))
    (hN : ∀ i, Spec.IsNearest ((Spec.training n test).erase i) (x i) k (N i))
    (hpos : ∀ i, 0 < Spec.meanOver (N i) (x i)) (a b : Fin n) (hab : a ≠ b) (hxy : Spec.Raised (· ≤ ·) x y a b) :
    ∃ M M' : Fin n → Fin n → ℝ,
      nicdm w (.mat false n n (toXR x)) k "distance" test nJobs = .ok ⟨n, toXR M⟩ ∧
      nicdm w' (.mat false n n (toXR y)) k "distance" test nJobs' = .ok ⟨n, toXR M'⟩ ∧ M a b ≤ M' a b := by
  have hcard : ∀ i, k ≤ ((Spec.training n test).erase i).card := fun i => by
    rw [← (hN i).card]; exact Finset.card_le_card (hN i).sub
  choose N' hN' using fun i => C32_nearest_exist (y i) ((Spec.training n test).erase i) k (hcard i)
  have hle : ∀ i, Spec.meanOver (N i) (x i) ≤ Spec.meanOver (N' i) (y i) := fun i =>
    meanOver_mono (hN i) (hN' i) (fun j _ => hxy.le_all i j)
  have hpos' : ∀ i, 0 < Spec.meanOver (N' i) (y i) := fun i => (hpos i).trans_le (hle i)
  refine ⟨_, _, C32_formula w x hxy.symm k hk test nJobs N hN hpos a.pos,
    C32_formula w' y hxy.symm' k hk test nJobs' N' hN' hpos' a.pos, ?_⟩
  beta_reduce
  rw [if_neg hab, if_neg hab]
  have hg : Spec.geometricMean (fun i => Spec.meanOver (N i) (x i)) ≤ Spec.geometricMean (fun i => Spec.meanOver (N' i) (y i)) :=
    Real.rpow_le_rpow (Finset.prod_nonneg fun i _ => (hpos i).le) (Finset.prod_le_prod (fun i _ => (hpos i).le) fun i _ => hle i)
      (by positivity)
  have hg0 := geometricMean_pos _ hpos
  have hg0' := geometricMean_pos _ hpos'
  unfold Spec.nicdm
  rcases (h0 a b).eq_or_lt with h | hd
  · rw [← h, mul_zero, zero_div]
    have : 0 ≤ y a b := (h0 a b).trans hxy.le
    positivity
  · have hf : ∀ i, Spec.meanOver (N' i) (y i) ≤ y a b / x a b * Spec.meanOver (N i) (x i) := fun i => by
      have hs := nearest_scale (div_pos (hd.trans_le hxy.le) hd) (hN i)
      rw [← hs.2]
      exact meanOver_mono (hN' i) hs.1 (fun j _ => hxy.factor h0 hd i j)
    have hp := mul_pos (hpos a) (hpos b)
    have hp' := mul_pos (hpos' a) (hpos' b)
    have hy : 0 < y a b := hd.trans_le hxy.le
    have hmain : x a b / √(Spec.meanOver (N a) (x a) * Spec.meanOver (N b) (x b)) ≤
        y a b / √(Spec.meanOver (N' a) (y a) * Spec.meanOver (N' b) (y b)) := by
      rw [div_le_div_iff₀ (Real.sqrt_pos.2 hp) (Real.sqrt_pos.2 hp')]
      refine le_of_sq_le_sq ?_ (by positivity)
      rw [mul_pow, mul_pow, Real.sq_sqrt hp.le, Real.sq_sqrt hp'.le]
      exact product_factor hd hxy.le (hpos a) (hpos b) (hpos' b) (hf a) (hf b)
    rw [mul_div_assoc, mul_div_assoc]
    exact mul_le_mul hg hmain (by positivity) hg0'.le

end HubToolbox.LS

namespace HubToolbox.SNN

open HubToolbox

/-- Neighbourhoods of natural numbers are neighbourhoods of reals. -/
theorem isHood_cast {n : ℕ} (v : Fin n → ℕ) (S N : Finset (Fin n)) (k : ℕ) (h1 : N ⊆ S) (h2 : N.card = k)
    (h3 : ∀ a ∈ N, ∀ b ∈ S, b ∉ N → v a ≤ v b) : Spec.IsHood (Spec.nearer "distance") S (fun j => (v j : ℝ)) k N :=
  ⟨h1, h2, fun a ha b hb hn => by
    unfold Spec.nearer
    rw [if_neg (by decide)]
    exact_mod_cast h3 a ha b hb hn⟩

/-- Three objects before and after the first two moved apart; both are metrics. -/
def near3 : Fin 3 → Fin 3 → ℕ := ![![0, 2, 4], ![2, 0, 5], ![4, 5, 0]]

@[inherit_doc near3]
def apart3 : Fin 3 → Fin 3 → ℕ := ![![0, 6, 4], ![6, 0, 5], ![4, 5, 0]]

/-- **C215** (shared nearest neighbours) is violated: moving apart can turn the largest distance into the smallest one. -/
theorem C215_snn_violated : ∃ (n : ℕ) (x y : Fin n → Fin n → ℝ) (a b : Fin n), a ≠ b ∧ Spec.Raised (· < ·) x y a b ∧
    (∀ i j l, x i l ≤ x i j + x j l) ∧ (∀ i j l, y i l ≤ y i j + y j l) ∧ (∀ i j, x i j = 0 ↔ i = j) ∧
    (∀ i j, y i j = 0 ↔ i = j) ∧
    ∀ (w w' : World ℝ) (nJobs nJobs' : ℤ), ∃ M M' : Fin n → Fin n → XR ℝ,
      sharedNearestNeighbors w (.mat false n n fun i j => .fin (x i j)) 1 "distance" nJobs = .ok ⟨n, M⟩ ∧
      sharedNearestNeighbors w' (.mat false n n fun i j => .fin (y i j)) 1 "distance" nJobs' = .ok ⟨n, M'⟩ ∧
      M a b = .fin 1 ∧ M' a b = .fin 0 := by
  refine ⟨3, fun i j => near3 i j, fun i j => apart3 i j, 0, 1, by decide, ⟨?_, ?_, ?_, ?_⟩, ?_, ?_, ?_, ?_, ?_⟩
  · intro i j; exact_mod_cast (by decide : ∀ i j, near3 i j = near3 j i) i j
  · intro i j; exact_mod_cast (by decide : ∀ i j, apart3 i j = apart3 j i) i j
  · exact_mod_cast (by decide : near3 0 1 < apart3 0 1)
  · intro i j h1 h2
    exact_mod_cast (by decide : ∀ i j : Fin 3, ¬ (i = 0 ∧ j = 1) → ¬ (i = 1 ∧ j = 0) → apart3 i j = near3 i j) i j h1 h2
  · intro i j l; beta_reduce; exact_mod_cast (by decide : ∀ i j l, near3 i l ≤ near3 i j + near3 j l) i j l
  · intro i j l; beta_reduce; exact_mod_cast (by decide : ∀ i j l, apart3 i l ≤ apart3 i j + apart3 j l) i j l
  · intro i j; beta_reduce; exact_mod_cast (by decide : ∀ i j, near3 i j = 0 ↔ i = j) i j
  · intro i j; beta_reduce; exact_mod_cast (by decide : ∀ i j, apart3 i j = 0 ↔ i = j) i j
  · intro w w' nJobs nJobs'
    refine ⟨_, _, C34_determined w _ (fun i j => (near3 i j : ℝ)) (fun _ _ _ => rfl) ?_ 1 le_rfl (by norm_num) "distance" (.inl rfl)
      nJobs ![{1}, {0}, {0}] ?_,
      C34_determined w' _ (fun i j => (apart3 i j : ℝ)) (fun _ _ _ => rfl) ?_ 1 le_rfl (by norm_num) "distance" (.inl rfl)
      nJobs' ![{2}, {2}, {0}] ?_, ?_, ?_⟩
    · intro i a b ha hb h
      exact (by decide : ∀ i a b, a ≠ i → b ≠ i → near3 i a = near3 i b → a = b) i a b ha hb (by exact_mod_cast h)
    · intro i
      fin_cases i <;> exact isHood_cast _ _ _ _ (by decide) (by decide) (by decide)
    · intro i a b ha hb h
      exact (by decide : ∀ i a b, a ≠ i → b ≠ i → apart3 i a = apart3 i b → a = b) i a b ha hb (by exact_mod_cast h)
    · intro i
      fin_cases i <;> exact isHood_cast _ _ _ _ (by decide) (by decide) (by decide)
    · rw [if_neg (by decide)]
      unfold Spec.snn Spec.commonFraction
      rw [if_neg (by decide), show ((![{1}, {0}, {0}] : Fin 3 → Finset (Fin 3)) 0 ∩
        (![{1}, {0}, {0}] : Fin 3 → Finset (Fin 3)) 1).card = 0 by decide]
      norm_num
    · rw [if_neg (by decide)]
      unfold Spec.snn Spec.commonFraction
      rw [if_neg (by decide), show ((![{2}, {2}, {0}] : Fin 3 → Finset (Fin 3)) 0 ∩
        (![{2}, {2}, {0}] : Fin 3 → Finset (Fin 3)) 1).card = 1 by decide]
      norm_num

/-- Four objects before and after the first two moved apart. -/
def near4 : Fin 4 → Fin 4 → ℕ := ![![0, 10, 20, 22], ![10, 0, 25, 28], ![20, 25, 0, 30], ![22, 28, 30, 0]]

@[inherit_doc near4]
def apart4 : Fin 4 → Fin 4 → ℕ := ![![0, 40, 20, 22], ![40, 0, 25, 28], ![20, 25, 0, 30], ![22, 28, 30, 0]]

/-- **C215** (`simhubIN`) is violated likewise. -/
theorem C215_simhub_violated : ∃ (n : ℕ) (x y : Fin n → Fin n → ℝ) (a b : Fin n), a ≠ b ∧ Spec.Raised (· < ·) x y a b ∧
    (∀ i j l, x i l ≤ x i j + x j l) ∧ (∀ i j l, y i l ≤ y i j + y j l) ∧
    ∀ (w w' : World ℝ) (nJobs nJobs' : ℤ), ∃ (M M' : Fin n → Fin n → XR ℝ) (p q : ℝ),
      simhubIN w (.mat false n n fun i j => .fin (x i j)) none none 1 true nJobs = .ok ⟨n, n, M⟩ ∧
      simhubIN w' (.mat false n n fun i j => .fin (y i j)) none none 1 true nJobs' = .ok ⟨n, n, M'⟩ ∧
      M a b = .fin p ∧ M' a b = .fin q ∧ q < p := by
  refine ⟨4, fun i j => near4 i j, fun i j => apart4 i j, 0, 1, by decide, ⟨?_, ?_, ?_, ?_⟩, ?_, ?_, ?_⟩
  · intro i j; exact_mod_cast (by decide : ∀ i j, near4 i j = near4 j i) i j
  · intro i j; exact_mod_cast (by decide : ∀ i j, apart4 i j = apart4 j i) i j
  · exact_mod_cast (by decide : near4 0 1 < apart4 0 1)
  · intro i j h1 h2
    exact_mod_cast (by decide : ∀ i j : Fin 4, ¬ (i = 0 ∧ j = 1) → ¬ (i = 1 ∧ j = 0) → apart4 i j = near4 i j) i j h1 h2
  · intro i j l; beta_reduce; exact_mod_cast (by decide : ∀ i j l, near4 i l ≤ near4 i j + near4 j l) i j l
  · intro i j l; beta_reduce; exact_mod_cast (by decide : ∀ i j l, apart4 i l ≤ apart4 i j + apart4 j l) i j l
  · intro w w' nJobs nJobs'
    obtain ⟨N, hN, h⟩ := C35_formula w (fun i j => .fin (near4 i j : ℝ)) (fun i j => (near4 i j : ℝ)) (fun _ _ _ => rfl) 1 le_rfl
      (by norm_num) true nJobs
    obtain ⟨N', hN', h'⟩ := C35_formula w' (fun i j => .fin (apart4 i j : ℝ)) (fun i j => (apart4 i j : ℝ)) (fun _ _ _ => rfl) 1 le_rfl
      (by norm_num) true nJobs'
    have eN : N = ![{1}, {0}, {0}, {0}] := by
      funext i
      refine IsHood.unique (hN i) ?_ ?_
      · fin_cases i <;> exact isHood_cast _ _ _ _ (by decide) (by decide) (by decide)
      · intro a ha b hb hab
        simp only [Finset.coe_erase, Finset.coe_univ, Set.mem_diff, Set.mem_univ, Set.mem_singleton_iff, true_and] at ha hb
        exact (by decide : ∀ i a b, a ≠ i → b ≠ i → near4 i a = near4 i b → a = b) i a b ha hb (by beta_reduce at hab; exact_mod_cast hab)
    have eN' : N' = ![{2}, {2}, {0}, {0}] := by
      funext i
      refine IsHood.unique (hN' i) ?_ ?_
      · fin_cases i <;> exact isHood_cast _ _ _ _ (by decide) (by decide) (by decide)
      · intro a ha b hb hab
        simp only [Finset.coe_erase, Finset.coe_univ, Set.mem_diff, Set.mem_univ, Set.mem_singleton_iff, true_and] at ha hb
        exact (by decide : ∀ i a b, a ≠ i → b ≠ i → apart4 i a = apart4 i b → a = b) i a b ha hb (by beta_reduce at hab; exact_mod_cast hab)
    refine ⟨_, _, _, _, h, h', rfl, rfl, ?_⟩
    rw [if_neg (by decide), if_neg (by decide), eN, eN']
    unfold Spec.orDistance Spec.simhub
    rw [if_pos rfl, if_pos rfl, show ((![{1}, {0}, {0}, {0}] : Fin 4 → Finset (Fin 4)) 0 ∩
        (![{1}, {0}, {0}, {0}] : Fin 4 → Finset (Fin 4)) 1) = ∅ by decide,
      show ((![{2}, {2}, {0}, {0}] : Fin 4 → Finset (Fin 4)) 0 ∩ (![{2}, {2}, {0}, {0}] : Fin 4 → Finset (Fin 4)) 1) = {2} by decide,
      Finset.sum_empty, Finset.sum_singleton,
      show Spec.occurrence Finset.univ (![{2}, {2}, {0}, {0}] : Fin 4 → Finset (Fin 4)) 2 = 3 by decide]
    have h1 : 0 < Real.log ((4 : ℕ) / (3 : ℕ) : ℝ) := Real.log_pos (by norm_num)
    have h2 : 0 < Real.log ((4 : ℕ) : ℝ) := Real.log_pos (by norm_num)
    have : 0 < Real.log ((4 : ℕ) / (3 : ℕ) : ℝ) * 1 / ((1 : ℕ) * Real.log ((4 : ℕ) : ℝ) * 1) := by
      have : ((1 : ℕ) : ℝ) = 1 := Nat.cast_one
      rw [this]; positivity
    rw [zero_div]
    linarith

end HubToolbox.SNN

/-! ### The hypotheses are satisfiable -/

namespace HubToolbox.Spec

/-- The outer points of `0, 1, 3` move apart by one. -/
theorem raised_line3 : Raised (· ≤ ·) LS.line3 (![![0, 1, 4], ![1, 0, 2], ![4, 2, 0]]) 0 2 := by
  refine ⟨LS.line3_symm, ?_, ?_, ?_⟩
  · intro i j; fin_cases i <;> fin_cases j <;> rfl
  · change (3 : ℝ) ≤ 4; norm_num
  · intro i j h1 h2
    fin_cases i <;> fin_cases j <;> first | rfl | exact absurd ⟨rfl, rfl⟩ h1 | exact absurd ⟨rfl, rfl⟩ h2

end HubToolbox.Spec

namespace HubToolbox

example (order order' : MPEmp.Order ℚ) := MPEmp.C215_mp order order' (fun i j => .fin (i.val + j.val + 1 : ℚ))
  (fun i j : Fin 3 => .fin (if i = 0 ∧ j = 2 ∨ i = 2 ∧ j = 0 then 5 else i.val + j.val + 1 : ℚ)) "distance" none none 0 0 _ _ rfl rfl
  0 2 (by decide) ⟨by decide +kernel, by decide +kernel, by decide +kernel, by decide +kernel⟩

example (F : MPPar.Dists) := MPPar.C215_gaussi F LS.line3 _ "distance" (Or.inr rfl) 0 0 none MPPar.training3_ne 0 2 (by decide)
  Spec.raised_line3

example (w w' : LS.World) := LS.C215_local_scaling w w' LS.line3 _ LS.line3_nonneg 1 le_rfl none 1 4 (by norm_num) (by norm_num) _
  LS.line3_radii LS.line3_pos 0 2 (by decide) Spec.raised_line3

example (w w' : LS.World) := LS.C215_nicdm w w' LS.line3 _ LS.line3_nonneg 1 le_rfl none 1 4 _ LS.line3_nearest LS.line3_mean
  0 2 (by decide) Spec.raised_line3

end HubToolbox
