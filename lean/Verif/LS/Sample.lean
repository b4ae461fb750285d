import Verif.LS.Props

/-!
# Properties of the sample variants (C33)
-/

set_option autoImplicit false

namespace HubToolbox.LS
open HubToolbox

/-- The columns which may serve as neighbours of point `i`: those of other points. -/
def Spec.otherColumns {n s : ℕ} (idx : Fin s → Fin n) (i : Fin n) : Finset (Fin s) :=
  Finset.univ.filter (fun j => idx j ≠ i)

theorem self_count {n s : ℕ} (x : Fin n → Fin s → ℝ) (idx : Fin s → Fin n) (i : Fin n) (p : XR ℝ → Prop)
    [DecidablePred p] (q : ℝ → Prop) [DecidablePred q] (hp : ∀ y, p (.fin y) ↔ q y) (hinf : ¬ p .pinf) :
    Finset.univ.filter (fun j => p (setSelf idx .pinf (toXR x) i j)) =
      (Spec.otherColumns idx i).filter (fun j => q (x i j)) := by
  ext j
  simp only [Finset.mem_filter, Finset.mem_univ, true_and, Spec.otherColumns, setSelf_apply]
  by_cases h : i = idx j
  · simp [h, hinf]
  · simp [h, hp, toXR, Ne.symm h]

theorem rankVal_sample {n s : ℕ} (x : Fin n → Fin s → ℝ) (idx : Fin s → Fin n) (i : Fin n) (k : ℕ) (hk : 1 ≤ k)
    (ρ : ℝ) (hr : Spec.IsKthSmallest (Spec.otherColumns idx i) (x i) k ρ) (t : Fin s) (ht : t.val = k - 1) :
    rankVal (setSelf idx .pinf (toXR x) i) t = .fin ρ := by
  refine (rankVal_spec _ t).unique ?_
  rw [ht]
  refine ⟨?_, ?_, ?_⟩
  · obtain ⟨j, hj, hx⟩ := hr.attained
    simp only [Spec.otherColumns, Finset.mem_filter, Finset.mem_univ, true_and] at hj
    exact ⟨j, by rw [setSelf_apply, if_neg (Ne.symm hj), toXR, hx]⟩
  · rw [self_count x idx i (fun v => v < .fin ρ) (fun y => y < ρ) (by simp) (by rw [not_lt]; simp)]
    have := hr.below
    omega
  · rw [self_count x idx i (fun v => v ≤ .fin ρ) (fun y => y ≤ ρ) (by simp) (by simp)]
    have := hr.upto
    omega

theorem meanRank_sample {n s : ℕ} (x : Fin n → Fin s → ℝ) (idx : Fin s → Fin n) (i : Fin n) (k : ℕ) (hk : 1 ≤ k)
    (h : k ≤ s) (N : Finset (Fin s)) (hN : Spec.IsNearest (Spec.otherColumns idx i) (x i) k N) :
    meanRank (setSelf idx .pinf (toXR x) i) k h = .fin (Spec.meanOver N (x i)) := by
  obtain ⟨d, hd⟩ : ∃ d, d = setSelf idx .pinf (toXR x) i := ⟨_, rfl⟩
  have hcard : k ≤ (Spec.otherColumns idx i).card := by rw [← hN.card]; exact Finset.card_le_card hN.sub
  have hval : ∀ c : Fin s, ∀ ρ, d c = .fin ρ → idx c ≠ i ∧ x i c = ρ := by
    intro c ρ hcρ
    rw [hd, setSelf_apply] at hcρ
    split at hcρ
    · exact absurd hcρ (by simp)
    · rename_i hne
      exact ⟨Ne.symm hne, by simpa [toXR] using hcρ⟩
  have hfin : ∀ c : Fin k, ∃ ρ, rankVal d ⟨c.val, lt_of_lt_of_le c.isLt h⟩ = .fin ρ := by
    intro c
    have hr := rankVal_spec d ⟨c.val, lt_of_lt_of_le c.isLt h⟩
    cases hv : rankVal d ⟨c.val, lt_of_lt_of_le c.isLt h⟩ with
    | fin ρ => exact ⟨ρ, rfl⟩
    | pinf =>
      exfalso
      rw [hv] at hr
      have hb := hr.below
      have hsub : Spec.otherColumns idx i ⊆ Finset.univ.filter (fun j => d j < .pinf) := by
        intro j hj
        simp only [Spec.otherColumns, Finset.mem_filter, Finset.mem_univ, true_and] at hj ⊢
        rw [hd, setSelf_apply, if_neg (Ne.symm hj)]
        simp [toXR]
      have := Finset.card_le_card hsub
      have := c.isLt
      simp only at hb
      omega
    | ninf =>
      exfalso
      rw [hv] at hr
      obtain ⟨c, hc⟩ := hr.attained
      rw [hd, setSelf_apply] at hc
      split at hc <;> simp [toXR] at hc
    | nan =>
      exfalso
      rw [hv] at hr
      obtain ⟨c, hc⟩ := hr.attained
      rw [hd, setSelf_apply] at hc
      split at hc <;> simp [toXR] at hc
  let p : Fin k → Fin s := fun c => Tuple.sort d ⟨c.val, lt_of_lt_of_le c.isLt h⟩
  have hp : ∀ c, d (p c) = rankVal d ⟨c.val, lt_of_lt_of_le c.isLt h⟩ := fun c => rfl
  have hpinj : Function.Injective p := by
    intro a b hab
    have := (Tuple.sort d).injective hab
    apply Fin.ext
    simpa using congrArg Fin.val this
  have hnear : Spec.IsNearest (Spec.otherColumns idx i) (x i) k (Finset.univ.image p) := by
    refine ⟨?_, ?_, ?_⟩
    · intro j hj
      obtain ⟨c, _, rfl⟩ := Finset.mem_image.1 hj
      obtain ⟨ρ, hρ⟩ := hfin c
      simp only [Spec.otherColumns, Finset.mem_filter, Finset.mem_univ, true_and]
      exact (hval _ ρ (by rw [hp, hρ])).1
    · rw [Finset.card_image_of_injective _ hpinj]
      simp
    · intro a ha b hb hnb
      obtain ⟨c, _, rfl⟩ := Finset.mem_image.1 ha
      simp only [Spec.otherColumns, Finset.mem_filter, Finset.mem_univ, true_and] at hb
      have hdb : d b = .fin (x i b) := by
        rw [hd, setSelf_apply, if_neg (Ne.symm hb)]
        rfl
      obtain ⟨ρ, hρ⟩ := hfin c
      rw [(hval _ ρ (by rw [hp, hρ])).2]
      have hle : d (p c) ≤ d b := by
        obtain ⟨q, hq⟩ := (Tuple.sort d).surjective b
        have hks : ¬ q.val < k := by
          intro hs'
          apply hnb
          rw [Finset.mem_image]
          exact ⟨⟨q.val, hs'⟩, Finset.mem_univ _, hq⟩
        rw [← hq]
        apply Tuple.monotone_sort d
        change c.val ≤ q.val
        omega
      rw [hp, hρ, hdb] at hle
      simpa using hle
  have hk0 : (k : ℝ) ≠ 0 := by positivity
  unfold meanRank
  rw [← hd]
  have : (fun c : Fin k => rankVal d ⟨c.val, lt_of_lt_of_le c.isLt h⟩) = fun c => .fin (x i (p c)) := by
    funext c
    obtain ⟨ρ, hρ⟩ := hfin c
    rw [hρ, (hval _ ρ (by rw [hp, hρ])).2]
  rw [this]
  unfold XR.mean Spec.meanOver
  rw [sum_fin, hN.card, nearest_sum_unique hN hnear, Finset.sum_image (fun a _ b _ hab => hpinj hab)]
  simp [XR.div, hk0]

theorem wrapAll_val {n s : ℕ} (idx : Fin s → Fin n) :
    Np.wrapAll n (fun j => ((idx j).val : ℤ)) = some idx := by
  have hw : ∀ j, Np.wrap n ((idx j).val : ℤ) = some (idx j) := by
    intro j
    rw [Np.wrap_of_nonneg (by omega) (by omega)]
    simp
  unfold Np.wrapAll
  rw [dif_pos (by intro j; rw [hw]; rfl)]
  simp [hw]

/-- An array of integer indices. -/
def ints {n s : ℕ} (idx : Fin s → Fin n) : Σ s : ℕ, Fin s → ℤ := ⟨s, fun j => ((idx j).val : ℤ)⟩

theorem ls_sample_eq (o : ArgPart (XR ℝ)) {n s : ℕ} (hsn : s ≤ n) (x : Fin n → Fin s → ℝ) (idx : Fin s → Fin n)
    (k : ℕ) (hk : 1 ≤ k) (hks : k ≤ s) (test : Option (Σ t : ℕ, Fin t → ℤ)) (r : Fin n → ℝ)
    (hr : ∀ i, Spec.IsKthSmallest (Spec.otherColumns idx i) (x i) k (r i)) :
    localScalingSample o (.mat false n s (toXR x)) k "distance" (some (ints idx)) test =
      finish idx (fun i j => entry "distance" (setSelf idx .pinf (toXR x) i j) (.fin (r i)) (.fin (r (idx j)))) test := by
  have hrad : ∀ i, partAt o (setSelf idx .pinf (toXR x) i) ((k : ℤ) - 1) = .ok (.fin (r i)) := by
    intro i
    rw [partAt_eq o _ _ ⟨k - 1, by omega⟩ (wrap_pred hk hks), rankVal_sample x idx i k hk (r i) (hr i) _ rfl]
  unfold localScalingSample
  have hcs : checkSample (.mat false n s (toXR x)) (some (ints idx)) =
      .ok ⟨n, s, toXR x, fun j => ((idx j).val : ℤ)⟩ := by
    unfold checkSample ints
    simp [not_lt.2 hsn]
  rw [hcs]
  change (match Np.wrapAll n (fun j => ((idx j).val : ℤ)) with | none => _ | some idx => _) = _
  rw [wrapAll_val]
  simp only [hrad, Np.tabulateM_ok]
  rfl

theorem nicdm_sample_eq (o : ArgPart (XR ℝ)) {n s : ℕ} (hsn : s ≤ n) (x : Fin n → Fin s → ℝ) (idx : Fin s → Fin n)
    (k : ℕ) (hk : 1 ≤ k) (hks : k ≤ s) (test : Option (Σ t : ℕ, Fin t → ℤ)) (N : Fin n → Finset (Fin s))
    (hN : ∀ i, Spec.IsNearest (Spec.otherColumns idx i) (x i) k (N i))
    (hpos : ∀ i, 0 < Spec.meanOver (N i) (x i)) :
    nicdmSample o (.mat false n s (toXR x)) k "distance" (some (ints idx)) test =
      finish idx (fun i j => nicdmEntry (.fin (Spec.geometricMean (fun i => Spec.meanOver (N i) (x i))))
        (setSelf idx .pinf (toXR x) i j) (.fin (Spec.meanOver (N i) (x i)))
        (.fin (Spec.meanOver (N (idx j)) (x (idx j))))) test := by
  have hn : 0 < n := by omega
  have hrad : ∀ i, meanRadius o (setSelf idx .pinf (toXR x) i) k = .ok (.fin (Spec.meanOver (N i) (x i))) := by
    intro i
    rw [meanRadius_ok o _ _ hks, meanRank_sample x idx i k hk hks (N i) (hN i)]
  unfold nicdmSample
  have hcs : checkSample (.mat false n s (toXR x)) (some (ints idx)) =
      .ok ⟨n, s, toXR x, fun j => ((idx j).val : ℤ)⟩ := by
    unfold checkSample ints
    simp [not_lt.2 hsn]
  rw [hcs]
  change (match Np.wrapAll n (fun j => ((idx j).val : ℤ)) with | none => _ | some idx => _) = _
  rw [wrapAll_val]
  simp only [not_lt.2 hks, if_false, hrad, Np.tabulateM_ok]
  refine Eq.trans (b := finish idx _ test) rfl ?_
  rw [geomean_fin hn _ hpos]

theorem entry_inf (ri rj : ℝ) (hi : 0 < ri) (hj : 0 < rj) :
    entry "distance" .pinf (.fin ri) (.fin rj) = .fin 1 := by
  have h := mul_pos hi hj
  unfold entry
  simp [XR.mul, XR.div, XR.infMul, XR.exp, XR.sub, XR.neg, XR.add, h.le, show ¬ ((0 : ℝ) < -1) by norm_num]

theorem nicdmEntry_inf (g ri rj : ℝ) (hg : 0 < g) (hi : 0 < ri) (hj : 0 < rj) :
    nicdmEntry (.fin g) .pinf (.fin ri) (.fin rj) = .pinf := by
  have h := mul_pos hi hj
  unfold nicdmEntry
  simp [XR.mul, XR.div, XR.infMul, XR.sqrt, h.not_gt, hg, hg.ne']

/-- What the sample variants should return for point `i` and the column of point `p`. -/
noncomputable def Spec.sampleValue {n : ℕ} (value : ℝ) (i p : Fin n) : ℝ := if i = p then 0 else value

theorem finish_test {n s t : ℕ} (idx : Fin s → Fin n) (f : Fin n → Fin s → XR ℝ) (test : Fin t → Fin n) :
    finish idx f (some (ints test)) =
      .ok ⟨t, s, fun a j => if test a = idx j then .fin 0 else f (test a) j⟩ := by
  unfold finish
  change (match Np.wrapAll n (fun j => ((test j).val : ℤ)) with | none => _ | some idx => _) = _
  rw [wrapAll_val]
  simp only
  congr 3
  funext a
  funext j
  have hm : test a ∈ List.ofFn test := by rw [List.mem_ofFn]; exact ⟨a, rfl⟩
  rw [setSelf_apply, fillRows_apply, if_pos hm]

theorem finish_none {n s : ℕ} (idx : Fin s → Fin n) (f : Fin n → Fin s → XR ℝ) :
    finish idx f none = .ok ⟨n, s, fun i j => if i.val = j.val then .fin 0 else f i j⟩ := by
  unfold finish
  simp only
  congr 3
  funext i
  funext j
  unfold Np.fillDiagonal
  rw [fillRows_apply, if_pos (List.mem_finRange i)]

/-- **C33**, the part which holds: with `test_ind` given, `local_scaling_sample` returns for each test point the local
scaling formula with radii which ignore self distances, and zero for the column of the point itself. -/
theorem C33_local_scaling_test_partial (o : ArgPart (XR ℝ)) {n s t : ℕ} (hsn : s ≤ n) (x : Fin n → Fin s → ℝ)
    (idx : Fin s → Fin n) (k : ℕ) (hk : 1 ≤ k) (hks : k ≤ s) (test : Fin t → Fin n) (r : Fin n → ℝ)
    (hr : ∀ i, Spec.IsKthSmallest (Spec.otherColumns idx i) (x i) k (r i)) (hpos : ∀ i, 0 < r i) :
    localScalingSample o (.mat false n s (toXR x)) k "distance" (some (ints idx)) (some (ints test)) =
      .ok ⟨t, s, fun a j => .fin (Spec.sampleValue
        (Spec.localScaling (x (test a) j) (r (test a)) (r (idx j))) (test a) (idx j))⟩ := by
  rw [ls_sample_eq o hsn x idx k hk hks _ r hr, finish_test]
  congr 3
  funext a
  funext j
  unfold Spec.sampleValue
  by_cases h : test a = idx j
  · simp [h]
  · rw [if_neg h, if_neg h, setSelf_apply, if_neg h, toXR, entry_distance _ _ _ (hpos _) (hpos _)]

/-- **C33**, the part which holds: the same without `test_ind` if column `j` is point `j`. -/
theorem C33_local_scaling_prefix_partial (o : ArgPart (XR ℝ)) {n s : ℕ} (hsn : s ≤ n) (x : Fin n → Fin s → ℝ)
    (k : ℕ) (hk : 1 ≤ k) (hks : k ≤ s) (r : Fin n → ℝ)
    (hr : ∀ i, Spec.IsKthSmallest (Spec.otherColumns (Fin.castLE hsn) i) (x i) k (r i)) (hpos : ∀ i, 0 < r i) :
    localScalingSample o (.mat false n s (toXR x)) k "distance" (some (ints (Fin.castLE hsn))) none =
      .ok ⟨n, s, fun i j => .fin (Spec.sampleValue
        (Spec.localScaling (x i j) (r i) (r (Fin.castLE hsn j))) i (Fin.castLE hsn j))⟩ := by
  rw [ls_sample_eq o hsn x _ k hk hks _ r hr, finish_none]
  congr 3
  funext i
  funext j
  unfold Spec.sampleValue
  by_cases h : i = Fin.castLE hsn j
  · rw [if_pos h, if_pos (by rw [h]; rfl)]
  · rw [if_neg h, if_neg (fun h' : i.val = j.val => h (Fin.ext h')), setSelf_apply, if_neg h, toXR,
      entry_distance _ _ _ (hpos _) (hpos _)]

/-- **C33**, the part which holds for `nicdm_sample` with `test_ind`. -/
theorem C33_nicdm_test_partial (o : ArgPart (XR ℝ)) {n s t : ℕ} (hsn : s ≤ n) (x : Fin n → Fin s → ℝ)
    (idx : Fin s → Fin n) (k : ℕ) (hk : 1 ≤ k) (hks : k ≤ s) (test : Fin t → Fin n) (N : Fin n → Finset (Fin s))
    (hN : ∀ i, Spec.IsNearest (Spec.otherColumns idx i) (x i) k (N i))
    (hpos : ∀ i, 0 < Spec.meanOver (N i) (x i)) :
    nicdmSample o (.mat false n s (toXR x)) k "distance" (some (ints idx)) (some (ints test)) =
      .ok ⟨t, s, fun a j => .fin (Spec.sampleValue
        (Spec.nicdm (Spec.geometricMean (fun i => Spec.meanOver (N i) (x i))) (x (test a) j)
          (Spec.meanOver (N (test a)) (x (test a))) (Spec.meanOver (N (idx j)) (x (idx j)))) (test a) (idx j))⟩ := by
  rw [nicdm_sample_eq o hsn x idx k hk hks _ N hN hpos, finish_test]
  congr 3
  funext a
  funext j
  unfold Spec.sampleValue
  by_cases h : test a = idx j
  · simp [h]
  · rw [if_neg h, if_neg h, setSelf_apply, if_neg h, toXR, nicdmEntry_fin _ _ _ _ (hpos _) (hpos _)]

/-- **C33** is violated. Without `test_ind` the code clears the entries `(j, j)` instead of `(train_ind[j], j)`. For every
training point which is not in its place (`train_ind[j] ≠ j`) the returned self distance is the *maximal* value one,
and the distance between the different points `j` and `train_ind[j]` is reported as zero. -/
theorem C33_local_scaling_violated (o : ArgPart (XR ℝ)) {n s : ℕ} (hsn : s ≤ n) (x : Fin n → Fin s → ℝ)
    (idx : Fin s → Fin n) (k : ℕ) (hk : 1 ≤ k) (hks : k ≤ s) (r : Fin n → ℝ)
    (hr : ∀ i, Spec.IsKthSmallest (Spec.otherColumns idx i) (x i) k (r i)) (hpos : ∀ i, 0 < r i) (j : Fin s)
    (hne : idx j ≠ Fin.castLE hsn j) :
    ∃ M : Fin n → Fin s → XR ℝ,
      localScalingSample o (.mat false n s (toXR x)) k "distance" (some (ints idx)) none = .ok ⟨n, s, M⟩ ∧
      M (idx j) j = .fin 1 ∧ M (Fin.castLE hsn j) j = .fin 0 := by
  refine ⟨fun i j => if i.val = j.val then .fin 0 else
      entry "distance" (setSelf idx .pinf (toXR x) i j) (.fin (r i)) (.fin (r (idx j))), ?_, ?_, ?_⟩
  · rw [ls_sample_eq o hsn x idx k hk hks _ r hr, finish_none]
  · simp only
    rw [if_neg (fun h : (idx j).val = j.val => hne (Fin.ext h)), setSelf_apply, if_pos rfl, entry_inf _ _ (hpos _) (hpos _)]
  · simp

/-- **C33** is violated for `nicdm_sample` in the same way: the self distance is infinite. -/
theorem C33_nicdm_violated (o : ArgPart (XR ℝ)) {n s : ℕ} (hsn : s ≤ n) (x : Fin n → Fin s → ℝ)
    (idx : Fin s → Fin n) (k : ℕ) (hk : 1 ≤ k) (hks : k ≤ s) (N : Fin n → Finset (Fin s))
    (hN : ∀ i, Spec.IsNearest (Spec.otherColumns idx i) (x i) k (N i))
    (hpos : ∀ i, 0 < Spec.meanOver (N i) (x i)) (j : Fin s)
    (hne : idx j ≠ Fin.castLE hsn j) :
    ∃ M : Fin n → Fin s → XR ℝ,
      nicdmSample o (.mat false n s (toXR x)) k "distance" (some (ints idx)) none = .ok ⟨n, s, M⟩ ∧
      M (idx j) j = .pinf ∧ M (Fin.castLE hsn j) j = .fin 0 := by
  refine ⟨fun i j => if i.val = j.val then .fin 0 else
      nicdmEntry (.fin (Spec.geometricMean (fun i => Spec.meanOver (N i) (x i))))
        (setSelf idx .pinf (toXR x) i j) (.fin (Spec.meanOver (N i) (x i)))
        (.fin (Spec.meanOver (N (idx j)) (x (idx j)))), ?_, ?_, ?_⟩
  · rw [nicdm_sample_eq o hsn x idx k hk hks _ N hN hpos, finish_none]
  · simp only
    rw [if_neg (fun h : (idx j).val = j.val => hne (Fin.ext h)), setSelf_apply, if_pos rfl,
      nicdmEntry_inf _ _ _ (geometricMean_pos _ hpos) (hpos _) (hpos _)]
  · simp

/-- Witness: three points, the training points are 1 and 2 (columns 0 and 1), `k = 1`; distances from `line3`. -/
example : ∃ M : Fin 3 → Fin 2 → XR ℝ,
    localScalingSample (ArgPart.ofInsertion _) (.mat false 3 2 (toXR (fun i j => line3 i j.succ))) (1 : ℕ) "distance"
      (some (ints (Fin.succ : Fin 2 → Fin 3))) none = .ok ⟨3, 2, M⟩ ∧ M 1 0 = .fin 1 ∧ M 0 0 = .fin 0 := by
  refine C33_local_scaling_violated (ArgPart.ofInsertion _) (by norm_num) (fun i j => line3 i j.succ) Fin.succ 1
    le_rfl (by norm_num) ![1, 2, 2] ?_ ?_ 0 (by decide)
  · intro i
    fin_cases i
    · refine ⟨⟨0, by decide, rfl⟩, ?_, ?_⟩
      · rw [Nat.lt_one_iff, Finset.card_eq_zero, Finset.filter_eq_empty_iff]
        intro j hj; fin_cases j
        · change ¬ ((1 : ℝ) < 1); norm_num
        · change ¬ ((3 : ℝ) < 1); norm_num
      · exact Finset.card_pos.2 ⟨0, Finset.mem_filter.2 ⟨by decide, le_refl (1 : ℝ)⟩⟩
    · refine ⟨⟨1, by decide, rfl⟩, ?_, ?_⟩
      · rw [Nat.lt_one_iff, Finset.card_eq_zero, Finset.filter_eq_empty_iff]
        intro j hj; fin_cases j
        · exact absurd hj (by decide)
        · change ¬ ((2 : ℝ) < 2); norm_num
      · exact Finset.card_pos.2 ⟨1, Finset.mem_filter.2 ⟨by decide, le_refl (2 : ℝ)⟩⟩
    · refine ⟨⟨0, by decide, rfl⟩, ?_, ?_⟩
      · rw [Nat.lt_one_iff, Finset.card_eq_zero, Finset.filter_eq_empty_iff]
        intro j hj; fin_cases j
        · change ¬ ((2 : ℝ) < 2); norm_num
        · exact absurd hj (by decide)
      · exact Finset.card_pos.2 ⟨0, Finset.mem_filter.2 ⟨by decide, le_refl (2 : ℝ)⟩⟩
  · intro i; fin_cases i <;> norm_num

end HubToolbox.LS
