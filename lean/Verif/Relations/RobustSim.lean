import Verif.Relations.RobustRPrec

/-!
# Local Scaling (C316) and Mutual Proximity (C317) of similarities are robust against measurement errors
-/

set_option autoImplicit false

namespace HubToolbox.Relations

open HubToolbox Knn

/-- Order statistics of the similarities of an object agree up to the factor. -/
theorem rank_upTo {n k : ℕ} {q : ℝ} (hq : 0 < q) {x y : Fin n → Fin n → ℝ} (h : ∀ i j, i ≠ j → y i j ≤ q * x i j) (i : Fin n)
    {r s : ℝ} (hr : Spec.IsKthLargest (Finset.univ.erase i) (x i) k r) (hs : Spec.IsKthLargest (Finset.univ.erase i) (y i) k s) : s ≤ q * r := by
  have := LS.kthSmallest_mono (LS.kthSmallest_scale hq hr) hs fun j hj => by
    have := h i j (Finset.ne_of_mem_erase hj).symm
    linarith
  linarith

theorem ranks_exist {n : ℕ} (x : Fin n → Fin n → ℝ) (k : ℕ) (hk : 1 ≤ k) (hkn : k < n) :
    ∃ r : Fin n → ℝ, ∀ i, Spec.IsKthLargest (Finset.univ.erase i) (x i) k (r i) := by
  obtain ⟨r, hr⟩ := LS.C28_radii_exist_all (fun i j => -x i j) k hk hkn
  refine ⟨fun i => -r i, fun i => ?_⟩
  have e : Spec.training n none = Finset.univ := by simp [Spec.training]
  have := hr i
  rw [e] at this
  unfold Spec.IsKthLargest
  rwa [neg_neg]

/-- **C316**: similarities known up to a factor `q` give results of Local Scaling within `q ^ 4 - 1`, so that results which are farther
apart than twice that keep their order. -/
theorem C316 (w w' : LS.World) {n : ℕ} (x y : Fin n → Fin n → ℝ) (q : ℝ) (hq : 1 ≤ q) (hxy : Spec.UpTo q x y)
    (hx : ∀ i j, x i j = x j i) (hy : ∀ i j, y i j = y j i) (hx0 : ∀ i j, i ≠ j → 0 < x i j) (k : ℕ) (hk : 1 ≤ k) (hkn : k < n)
    (nJobs nJobs' : ℤ) (hj : nJobs = -1 ∨ 1 ≤ nJobs) (hj' : nJobs' = -1 ∨ 1 ≤ nJobs') :
    ∃ M M' : Fin n → Fin n → ℝ, LS.localScaling w (.mat false n n (LS.toXR x)) k "similarity" none nJobs = .ok ⟨n, LS.toXR M⟩ ∧
      LS.localScaling w' (.mat false n n (LS.toXR y)) k "similarity" none nJobs' = .ok ⟨n, LS.toXR M'⟩ ∧ (∀ i j, |M' i j - M i j| ≤ q ^ 4 - 1) ∧
      (∀ i a b, 2 * (q ^ 4 - 1) < M i a - M i b → M' i b < M' i a) := by
  have hq0 : 0 < q := by linarith
  have hy0 : ∀ i j, i ≠ j → 0 < y i j := fun i j hij => by
    have h1 := hx0 i j hij
    have h2 := (hxy i j hij).1
    by_contra hc
    have := mul_nonpos_of_nonneg_of_nonpos hq0.le (not_lt.1 hc)
    linarith
  obtain ⟨r, hr⟩ := ranks_exist x k hk hkn
  obtain ⟨s, hs⟩ := ranks_exist y k hk hkn
  have hr0 : ∀ i, 0 < r i := fun i => by
    obtain ⟨j, hj, e⟩ := (hr i).attained
    rw [← neg_injective e]
    exact hx0 i j (Finset.ne_of_mem_erase hj).symm
  have hs0 : ∀ i, 0 < s i := fun i => by
    obtain ⟨j, hj, e⟩ := (hs i).attained
    rw [← neg_injective e]
    exact hy0 i j (Finset.ne_of_mem_erase hj).symm
  have c1 : ∀ i, s i ≤ q * r i := fun i => rank_upTo hq0 (fun i j h => (hxy i j h).2) i (hr i) (hs i)
  have c2 : ∀ i, r i ≤ q * s i := fun i => rank_upTo hq0 (fun i j h => (hxy i j h).1) i (hs i) (hr i)
  have hmain : ∀ i j, |(if i = j then 1 else Real.exp (-(y i j ^ 2 / (s i * s j)))) - (if i = j then 1 else Real.exp (-(x i j ^ 2 / (r i * r j))))| ≤
      q ^ 4 - 1 := by
    intro i j
    have h4 := one_le_pow₀ hq (n := 4)
    split_ifs with h
    · simpa using h4
    · have p1 : 0 ≤ x i j ^ 2 / (r i * r j) := div_nonneg (sq_nonneg _) (mul_pos (hr0 i) (hr0 j)).le
      have p2 : 0 ≤ y i j ^ 2 / (s i * s j) := div_nonneg (sq_nonneg _) (mul_pos (hs0 i) (hs0 j)).le
      have b1 := exp_upTo h4 p1 (exponent_upTo hq0 (hr0 i) (hr0 j) (hs0 i) (hs0 j) (hy0 i j h).le (hxy i j h).2 (c2 i) (c2 j))
      have b2 := exp_upTo h4 p2 (exponent_upTo hq0 (hs0 i) (hs0 j) (hr0 i) (hr0 j) (hx0 i j h).le (hxy i j h).1 (c1 i) (c1 j))
      rw [abs_le]
      constructor <;> linarith
  refine ⟨_, _, LS.C70_formula_partial w x hx k hk hkn nJobs hj r hr fun i => (hr0 i).ne', LS.C70_formula_partial w' y hy k hk hkn nJobs' hj' s hs
    fun i => (hs0 i).ne', hmain, fun i a b hgap => ?_⟩
  have e1 := abs_le.1 (hmain i a)
  have e2 := abs_le.1 (hmain i b)
  linarith [e1.1, e2.2]

open Classical in
/-- **C317**: Mutual Proximity of similarities known up to a factor `q` changes by at most the share of objects whose similarity to one of the two
cannot be told from the similarity of the two. -/
theorem C317 (order order' : MPEmp.Order ℝ) {n : ℕ} (x y : Fin n → Fin n → ℝ) (q : ℝ) (hq : 1 ≤ q) (hxy : Spec.UpTo q x y)
    (hx : ∀ i j, x i j = x j i) (hy : ∀ i j, y i j = y j i) (hx0 : ∀ i j, i ≠ j → 0 < x i j) (sp sp' : Bool) (minNnz minNnz' : ℤ) :
    ∃ M M' : Fin n → Fin n → ℝ, MPEmp.full order (.obj (.mat sp n n (LS.toXR x))) "similarity" none minNnz = .ok (.dense n M) ∧
      MPEmp.full order' (.obj (.mat sp' n n (LS.toXR y))) "similarity" none minNnz' = .ok (.dense n M') ∧
      ∀ i j, |M' i j - M i j| ≤
        ((Finset.univ.filter fun a => a ≠ i ∧ a ≠ j ∧ (Spec.doubtful q x i j a ∨ Spec.doubtful q x j i a)).card : ℝ) / n := by
  have hfull : ∀ (order : MPEmp.Order ℝ) (sp : Bool) (z : Fin n → Fin n → ℝ) (c : ℤ),
      MPEmp.full order (.obj (.mat sp n n (LS.toXR z))) "similarity" none c = .ok (.dense n (MPEmp.fullDense "similarity" (LS.toXR z))) := by
    intro order sp z c
    unfold MPEmp.full
    simp only [dif_pos]
    rfl
  refine ⟨_, _, hfull order sp x minNnz, hfull order' sp' y minNnz', fun i j => ?_⟩
  have hn : (0 : ℝ) < n := by exact_mod_cast i.pos
  rw [(MPEmp.C21_computes_definition order _ sp "similarity" none minNnz _ (hfull order sp x minNnz) (fun i j => congrArg XR.fin (hx i j)) i j).2 rfl
      (by simp [LS.toXR]),
    (MPEmp.C21_computes_definition order' _ sp' "similarity" none minNnz' _ (hfull order' sp' y minNnz') (fun i j => congrArg XR.fin (hy i j)) i j).2 rfl
      (by simp [LS.toXR])]
  unfold Spec.mpSimilarity
  by_cases hij : i = j
  · rw [if_pos hij, if_pos hij, sub_self, abs_zero]; positivity
  rw [if_neg hij, if_neg hij]
  have key : ∀ a, a ≠ i → a ≠ j → ¬ ((x i a ≤ x i j ∧ x j a ≤ x i j) ↔ (y i a ≤ y i j ∧ y j a ≤ y i j)) →
      Spec.doubtful q x i j a ∨ Spec.doubtful q x j i a := by
    intro a ha hb hne
    by_contra hc
    rw [not_or] at hc
    refine hne (and_congr ?_ ?_)
    · rw [← not_lt, ← not_lt]
      exact not_congr (not_not.1 fun hd => hc.1 (doubtful_of_lt hq hxy hx0 (Ne.symm hij) ha hd))
    · rw [hx i j, hy i j, ← not_lt, ← not_lt]
      exact not_congr (not_not.1 fun hd => hc.2 (doubtful_of_lt hq hxy hx0 hij hb hd))
  have hm : ∀ (z : Fin n → Fin n → ℝ) a, a ∈ Spec.lessSimilar (LS.toXR z) i j ↔ a ≠ i ∧ a ≠ j ∧ z i a ≤ z i j ∧ z j a ≤ z i j := by
    intro z a
    unfold Spec.lessSimilar
    rw [Finset.mem_filter]
    exact ⟨fun h => h.2, fun h => ⟨Finset.mem_univ a, h⟩⟩
  have hb := card_diff (A := Spec.lessSimilar (LS.toXR x) i j) (A' := Spec.lessSimilar (LS.toXR y) i j)
    (B := Finset.univ.filter fun a => a ≠ i ∧ a ≠ j ∧ (Spec.doubtful q x i j a ∨ Spec.doubtful q x j i a))
    (fun a ha => by
      rw [Finset.mem_sdiff, hm, hm] at ha
      obtain ⟨⟨h1, h2, h3⟩, h4⟩ := ha
      exact Finset.mem_filter.2 ⟨Finset.mem_univ a, h1, h2, key a h1 h2 fun e => h4 ⟨h1, h2, e.1 h3⟩⟩)
    (fun a ha => by
      rw [Finset.mem_sdiff, hm, hm] at ha
      obtain ⟨⟨h1, h2, h3⟩, h4⟩ := ha
      exact Finset.mem_filter.2 ⟨Finset.mem_univ a, h1, h2, key a h1 h2 fun e => h4 ⟨h1, h2, e.2 h3⟩⟩)
  rw [← sub_div, abs_div, abs_of_pos hn]
  exact div_le_div_of_nonneg_right hb hn.le

/-! ### Instances -/

/-- `companions4` with an error of one percent in one similarity. -/
noncomputable def symMeasured4 (i j : Fin 4) : ℝ := if (i = 0 ∧ j = 1) ∨ (i = 1 ∧ j = 0) then 101 / 25 else companions4 i j

theorem symMeasured4_upTo : Spec.UpTo (101 / 100) companions4 symMeasured4 := fun i j _ => by
  fin_cases i <;> fin_cases j <;> norm_num [symMeasured4, companions4]

example (w w' : LS.World) := C316 w w' companions4 symMeasured4 (101 / 100) (by norm_num) symMeasured4_upTo
  (fun i j => by fin_cases i <;> fin_cases j <;> rfl) (fun i j => by fin_cases i <;> fin_cases j <;> norm_num [symMeasured4, companions4])
  (fun i j _ => companions4_pos i j) 1 le_rfl (by norm_num) 1 (-1) (Or.inr le_rfl) (Or.inl rfl)

example (order order' : MPEmp.Order ℝ) := C317 order order' companions4 symMeasured4 (101 / 100) (by norm_num) symMeasured4_upTo
  (fun i j => by fin_cases i <;> fin_cases j <;> rfl) (fun i j => by fin_cases i <;> fin_cases j <;> norm_num [symMeasured4, companions4])
  (fun i j _ => companions4_pos i j) false false 0 0

end HubToolbox.Relations
