import Verif.SNN.SimhubProps

/-!
# `simhub` and `simhubIN` with `train_ind` (C74, C75, C78)
-/

set_option autoImplicit false

namespace HubToolbox.SNN

open HubToolbox LS

/-! ### C74: `vect_usage` -/

theorem partner_none {n m : ℕ} (h : m ≤ n) (v : Bool) (j : Fin m) : partner h v none j = j.castLE h := by
  cases v <;> rfl

/-- **C74**, the part which holds: without `train_ind`, the result of `simhub` does not depend on `vect_usage`, for every
input matrix, labels and test indices. -/
theorem C74_square_partial (w : World ℝ) (D : PyMat (XR ℝ)) (y : Option (Σ l : ℕ, Fin l → ℤ))
    (test : Option (Σ t : ℕ, Fin t → ℤ)) (s : ℤ) (rd : Bool) (vu vu' : ℤ) :
    simhub w D y none test s rd vu = simhub w D y none test s rd vu' := by
  unfold simhub
  cases hc : shiCheck D none with
  | error e => rfl
  | ok r =>
    obtain ⟨sp, n, m, D', idx⟩ := r
    have hidx : idx = none := by
      unfold shiCheck at hc
      cases hsq : D.checkSquare with
      | error e => rw [hsq] at hc; cases hc
      | ok r =>
        rw [hsq] at hc
        cases hc
        rfl
    subst hidx
    cases sp
    · simp only [bind, Except.bind, shiExclude, Bool.false_eq_true, if_false, partner_none]
    · simp only [bind, Except.bind, shiExclude, if_true]

/-! ### Closed forms -/

theorem shiCheck_ints {n m : ℕ} (hm : m ≤ n) (D : Fin n → Fin m → XR ℝ) (idx : Fin m → Fin n) :
    shiCheck (.mat false n m D) (some (ints idx)) = .ok (false, ⟨n, m, D, some (fun j => ((idx j).val : ℤ))⟩) := by
  have hs : checkSample (.mat false n m D) (some (ints idx)) = .ok ⟨n, m, D, fun j => ((idx j).val : ℤ)⟩ := by
    simp [checkSample, ints, not_lt.2 hm]
  unfold shiCheck
  simp only [hs]
  rfl

theorem shiExclude_ints {n m : ℕ} (D : Fin n → Fin m → XR ℝ) (idx : Fin m → Fin n) :
    shiExclude false D (some (fun j => ((idx j).val : ℤ))) = .ok (setSelf idx .pinf D, some idx) := by
  change (match Np.wrapAll n (fun j => ((idx j).val : ℤ)) with | none => _ | some idx => _) = _
  rw [wrapAll_val]

/-- The normalised sum of the informativeness of the common columns. -/
noncomputable def common {n m : ℕ} (N : Fin n → Finset (Fin m)) (occ : Fin m → ℕ) (s : ℕ) (i i' : Fin n) : ℝ :=
  (∑ c ∈ N i ∩ N i', Real.log ((m : ℝ) / occ c)) / (s * Real.log m)

theorem shiFinish_some_fin {n m t : ℕ} (v : Fin n → Fin m → ℝ) (f : Fin n → Fin m → XR ℝ)
    (hf : ∀ i j, f i j = .fin (v i j)) (norm : ℝ) (hn : norm ≠ 0) (rd : Bool) (test : Fin t → Fin n) :
    shiFinish f (.fin norm) rd (some ⟨t, test⟩) =
      ⟨t, m, fun a j => .fin (Spec.orDistance rd (v (test a) j / norm))⟩ := by
  unfold shiFinish
  simp only
  congr 2
  funext a j
  simp only [hf]
  exact finish_fin (v (test a) j) norm hn rd

theorem simhub_test (w : World ℝ) {n m t : ℕ} (hm : m ≤ n) (D : Fin n → Fin m → XR ℝ) (idx : Fin m → Fin n) (s : ℕ)
    (h1 : 1 ≤ s) (hs : s < m) (test : Fin t → Fin n) (rd : Bool) (vu : ℤ) :
    simhub w (.mat false n m D) none (some (ints idx)) (some (ints test)) s rd vu =
      .ok ⟨t, m, fun a j => .fin (Spec.orDistance rd (common (fun i => (sampleSel w "distance" s D idx i).toFinset)
        (fun c => occ (markSerial (sampleSel w "distance" s D idx)) c + 1) s (test a)
        (partner hm (decide (vu > 0 ∨ (vu = 0 ∧ m < 2000))) (some idx) j)))⟩ := by
  have hnorm : (s : ℝ) * Real.log m ≠ 0 :=
    mul_ne_zero (Nat.cast_ne_zero.2 (by omega)) (log_pos_of (by omega)).ne'
  unfold simhub
  rw [shiCheck_ints hm]
  refine Eq.trans (b := if ¬ (0 < (s : ℤ) ∧ (s : ℤ) < m) then _ else _) rfl ?_
  rw [if_neg (by omega)]
  simp only [shiExclude_ints, wrapTest_ints]
  refine Eq.trans (b := if h : m ≤ n then _ else _) rfl ?_
  rw [dif_pos hm]
  refine Eq.trans (b := Except.ok _) rfl ?_
  rw [shiFinish_some, log_fin (by omega)]
  simp only [Int.cast_natCast, XR.mul]
  congr 1
  refine shiFinish_some_fin (fun i j => ∑ c ∈ (sampleSel w "distance" s D idx i).toFinset ∩
    (sampleSel w "distance" s D idx (partner hm (decide (vu > 0 ∨ (vu = 0 ∧ m < 2000))) (some idx) j)).toFinset,
      Real.log ((m : ℝ) / (occ (markSerial (sampleSel w "distance" s D idx)) c + 1 : ℕ))) _ ?_ _ hnorm rd test
  intro i j
  refine shared_mark _ i _ _ _ fun c => ?_
  rw [informativeness_fin (by omega) (Nat.succ_pos _)]
  simp only [mul_one]
  rfl

theorem simhubIN_test (w : World ℝ) {n m t : ℕ} (hm : m ≤ n) (D : Fin n → Fin m → XR ℝ) (idx : Fin m → Fin n) (s : ℕ)
    (h1 : 1 ≤ s) (hs : s < m) (test : Fin t → Fin n) (rd : Bool) (nJobs : ℤ) :
    simhubIN w (.mat false n m D) (some (ints idx)) (some (ints test)) s rd nJobs =
      .ok ⟨t, m, fun a j => .fin (Spec.orDistance rd (common (fun i => (sampleSel w "distance" s D idx i).toFinset)
        (fun c => occIN (markSerial (sampleSel w "distance" s D idx)) c) s (test a)
        (partner hm (decide (m < 2000)) (some idx) j)))⟩ := by
  have hnorm : (s : ℝ) * Real.log m ≠ 0 :=
    mul_ne_zero (Nat.cast_ne_zero.2 (by omega)) (log_pos_of (by omega)).ne'
  unfold simhubIN
  rw [shiCheck_ints hm]
  change ((shiExclude false D (some (fun j => ((idx j).val : ℤ)))).bind fun _ => _) = _
  rw [shiExclude_ints]
  refine Eq.trans (b := if h : m ≤ n then _ else _) rfl ?_
  rw [dif_pos hm]
  simp only [wrapTest_ints, markParallel_eq, rowsParallel_eq, ite_self]
  refine Eq.trans (b := Except.ok _) rfl ?_
  rw [shiFinish_some, log_fin (by omega)]
  simp only [Int.cast_natCast, XR.mul]
  congr 1
  refine shiFinish_some_fin (fun i j => ∑ c ∈ (sampleSel w "distance" s D idx i).toFinset ∩
    (sampleSel w "distance" s D idx (partner hm (decide (m < 2000)) (some idx) j)).toFinset,
      Real.log ((m : ℝ) / (occIN (markSerial (sampleSel w "distance" s D idx)) c : ℕ))) _ ?_ _ hnorm rd test
  intro i j
  refine shared_mark _ i _ _ _ fun c => ?_
  have hpos : 0 < occIN (markSerial (sampleSel w "distance" s D idx)) c := by
    rw [occIN_mark]
    exact Finset.card_pos.2 ⟨c.castLE hm, Finset.mem_filter.2 ⟨Finset.mem_univ _, c.isLt, .inl rfl⟩⟩
  exact informativeness_fin (by omega) hpos

/-! ### C74: violation -/

/-- Four points, the columns belong to points 1, 0, 2, 3. The nearest columns are 2, 1, 1, 0. -/
def swap4 : Fin 4 → Fin 4 → ℕ := ![![9, 9, 1, 9], ![9, 1, 9, 9], ![9, 1, 9, 9], ![1, 9, 9, 9]]

/-- The points of the columns of `swap4`. -/
def swapIdx : Fin 4 → Fin 4 := ![1, 0, 2, 3]

/-- Nearest columns in `swap4`. -/
def swapNear : Fin 4 → Fin 4 := ![2, 1, 1, 0]

theorem sampleSel_one (w : World ℝ) {n m : ℕ} (D : Fin n → Fin m → ℕ) (idx : Fin m → Fin n)
    (hidx : Function.Injective idx) (hm : 1 < m) (near : Fin n → Fin m) (hne : ∀ i, idx (near i) ≠ i)
    (hnear : ∀ i j, idx j ≠ i → j ≠ near i → D i (near i) < D i j) (i : Fin n) :
    (sampleSel w "distance" 1 (fun i j => .fin (D i j : ℝ)) idx i).toFinset = {near i} := by
  have hh := sampleSel_isHood w "distance" (.inl rfl) 1 _ (fun i j => (D i j : ℝ)) idx hidx (fun _ _ _ => rfl) hm i
  rw [Nat.cast_one] at hh
  refine hood_one (LS.Spec.otherColumns idx i) _ (near i) (Finset.mem_filter.2 ⟨Finset.mem_univ _, hne i⟩) ?_ _ hh
  intro b hb hb'
  exact_mod_cast hnear i b (Finset.mem_filter.1 hb).2 hb'

theorem occ_sample (w : World ℝ) {n m : ℕ} (D : Fin n → Fin m → XR ℝ) (idx : Fin m → Fin n) (s : ℤ)
    (N : Fin n → Finset (Fin m)) (hN : ∀ i, (sampleSel w "distance" s D idx i).toFinset = N i) (c : Fin m) :
    occ (markSerial (sampleSel w "distance" s D idx)) c =
      (Finset.univ.filter (fun i : Fin n => i.val < m ∧ c ∈ N i)).card := by
  rw [occ_mark]; simp only [hN]

theorem occIN_sample (w : World ℝ) {n m : ℕ} (D : Fin n → Fin m → XR ℝ) (idx : Fin m → Fin n) (s : ℤ)
    (N : Fin n → Finset (Fin m)) (hN : ∀ i, (sampleSel w "distance" s D idx i).toFinset = N i) (c : Fin m) :
    occIN (markSerial (sampleSel w "distance" s D idx)) c =
      (Finset.univ.filter (fun i : Fin n => i.val < m ∧ (i.val = c.val ∨ c ∈ N i))).card := by
  rw [occIN_mark]; simp only [hN]

/-- **C74** is violated: with `train_ind`, the vectorised branch compares with the points of the columns, the other one
with the first rows. -/
theorem C74_violated (w : World ℝ) :
    simhub w (.mat false 4 4 (fun i j => .fin (swap4 i j : ℝ))) none (some (ints swapIdx))
        (some (ints (![2] : Fin 1 → Fin 4))) 1 false 1 ≠
      simhub w (.mat false 4 4 (fun i j => .fin (swap4 i j : ℝ))) none (some (ints swapIdx))
        (some (ints (![2] : Fin 1 → Fin 4))) 1 false (-1) := by
  have hN := sampleSel_one w swap4 swapIdx (by decide) (by norm_num) swapNear (by decide) (by decide)
  have hv := fun vu => simhub_test w (le_refl 4) (fun i j => .fin (swap4 i j : ℝ)) swapIdx 1 le_rfl (by norm_num)
    (![2] : Fin 1 → Fin 4) false vu
  rw [Nat.cast_one] at hv
  rw [hv, hv]
  intro h
  have h := Except.ok.inj h
  have h := eq_of_heq (Sigma.mk.inj (eq_of_heq (Sigma.mk.inj h).2)).2
  have h := XR.fin.inj (congrFun (congrFun h 0) 0)
  simp only [common, hN, occ_sample w _ swapIdx 1 _ hN] at h
  have e1 : partner (le_refl 4) (decide ((1 : ℤ) > 0 ∨ ((1 : ℤ) = 0 ∧ 4 < 2000))) (some swapIdx) 0 = 1 := by decide
  have e2 : partner (le_refl 4) (decide ((-1 : ℤ) > 0 ∨ ((-1 : ℤ) = 0 ∧ 4 < 2000))) (some swapIdx) 0 = 0 := by decide
  rw [e1, e2] at h
  have i1 : ({swapNear ((![2] : Fin 1 → Fin 4) 0)} ∩ {swapNear 1} : Finset (Fin 4)) = {1} := by decide
  have i2 : ({swapNear ((![2] : Fin 1 → Fin 4) 0)} ∩ {swapNear 0} : Finset (Fin 4)) = ∅ := by decide
  have c1 : (Finset.univ.filter (fun i : Fin 4 => i.val < 4 ∧ (1 : Fin 4) ∈ ({swapNear i} : Finset (Fin 4)))).card = 2 := by
    decide
  rw [i1, i2, Finset.sum_singleton, Finset.sum_empty, c1] at h
  have l1 : 0 < Real.log ((4 : ℕ) / (2 + 1 : ℕ) : ℝ) := Real.log_pos (by norm_num)
  have l2 : 0 < Real.log ((4 : ℕ) : ℝ) := log_pos_of (by norm_num)
  simp only [Spec.orDistance, Bool.false_eq_true, if_false, zero_div] at h
  have := div_pos l1 (mul_pos (show (0 : ℝ) < (1 : ℕ) by norm_num) l2)
  exact absurd h this.ne'

/-! ### C75, C78: held-out points -/

/-- Test points 0 and 1, training points 2 and 3. -/
def held (flip : Bool) : Fin 4 → Fin 2 → ℕ := ![![1, 2], if flip then ![2, 1] else ![1, 2], ![0, 1], ![1, 0]]

/-- Nearest columns in `held`. -/
def heldNear (flip : Bool) : Fin 4 → Fin 2 := ![0, if flip then 1 else 0, 1, 0]

theorem held_value (w : World ℝ) (flip : Bool) :
    ∃ M : Fin 2 → Fin 2 → XR ℝ,
      simhub w (.mat false 4 2 (fun i j => .fin (held flip i j : ℝ))) none (some (ints (![2, 3] : Fin 2 → Fin 4)))
        (some (ints (![0, 1] : Fin 2 → Fin 4))) 1 false 0 = .ok ⟨2, 2, M⟩ ∧
      M 0 1 = .fin (Real.log (2 / (if flip then 2 else 3)) / Real.log 2) := by
  have hN := sampleSel_one w (held flip) ![2, 3] (by decide) (by norm_num) (heldNear flip) (by revert flip; decide)
    (by revert flip; decide)
  have hv := simhub_test w (show 2 ≤ 4 by norm_num) (fun i j => .fin (held flip i j : ℝ)) ![2, 3] 1 le_rfl (by norm_num)
    (![0, 1] : Fin 2 → Fin 4) false 0
  rw [Nat.cast_one] at hv
  refine ⟨_, hv, ?_⟩
  have e1 : partner (show 2 ≤ 4 by norm_num) (decide ((0 : ℤ) > 0 ∨ ((0 : ℤ) = 0 ∧ 2 < 2000)))
    (some (![2, 3] : Fin 2 → Fin 4)) 1 = 3 := by decide
  rw [e1]
  simp only [common, hN, occ_sample w _ _ 1 _ hN]
  have i1 : ({heldNear flip ((![0, 1] : Fin 2 → Fin 4) 0)} ∩ {heldNear flip 3} : Finset (Fin 2)) = {0} := by
    cases flip <;> decide
  have c1 : (Finset.univ.filter (fun i : Fin 4 => i.val < 2 ∧ (0 : Fin 2) ∈ ({heldNear flip i} : Finset (Fin 2)))).card =
      if flip then 1 else 2 := by
    cases flip <;> decide
  rw [i1, Finset.sum_singleton, c1]
  cases flip <;> norm_num [Spec.orDistance]

/-- **C75** is violated: the distances of test point 1 influence the similarity between test point 0 and a training
point. -/
theorem C75_violated (w : World ℝ) :
    ∃ D D' : Fin 4 → Fin 2 → XR ℝ, (∀ i, i ≠ 1 → D i = D' i) ∧
    ∃ M M' : Fin 2 → Fin 2 → XR ℝ,
      simhub w (.mat false 4 2 D) none (some (ints (![2, 3] : Fin 2 → Fin 4))) (some (ints (![0, 1] : Fin 2 → Fin 4)))
        1 false 0 = .ok ⟨2, 2, M⟩ ∧
      simhub w (.mat false 4 2 D') none (some (ints (![2, 3] : Fin 2 → Fin 4))) (some (ints (![0, 1] : Fin 2 → Fin 4)))
        1 false 0 = .ok ⟨2, 2, M'⟩ ∧ M 0 ≠ M' 0 := by
  obtain ⟨M, h, hM⟩ := held_value w true
  obtain ⟨M', h', hM'⟩ := held_value w false
  refine ⟨_, _, ?_, M, M', h, h', ?_⟩
  · have : ∀ i : Fin 4, i ≠ 1 → held true i = held false i := by decide
    intro i hi
    rw [this i hi]
  · intro heq
    have := congrFun heq 1
    rw [hM, hM'] at this
    have := XR.fin.inj this
    have l2 : 0 < Real.log 2 := Real.log_pos (by norm_num)
    have l3 : Real.log (2 / 3) < 0 := Real.log_neg (by norm_num) (by norm_num)
    simp only [if_true, Bool.false_eq_true, if_false] at this
    rw [div_self two_ne_zero, Real.log_one, zero_div] at this
    have h3 := div_neg_of_neg_of_pos l3 l2
    linarith

/-- **C78** is violated: a similarity between a test and a training point is negative. -/
theorem C78_violated (w : World ℝ) :
    ∃ (D : Fin 4 → Fin 2 → ℕ) (M : Fin 2 → Fin 2 → XR ℝ) (v : ℝ),
      simhub w (.mat false 4 2 (fun i j => .fin (D i j : ℝ))) none (some (ints (![2, 3] : Fin 2 → Fin 4)))
        (some (ints (![0, 1] : Fin 2 → Fin 4))) 1 false 0 = .ok ⟨2, 2, M⟩ ∧ M 0 1 = .fin v ∧ v < 0 := by
  obtain ⟨M, h, hM⟩ := held_value w false
  refine ⟨held false, M, _, h, hM, ?_⟩
  simp only [Bool.false_eq_true, if_false]
  exact div_neg_of_neg_of_pos (Real.log_neg (by norm_num) (by norm_num)) (Real.log_pos (by norm_num))

theorem partner_prefix {n m : ℕ} (h : m ≤ n) (v : Bool) (j : Fin m) :
    partner h v (some (Fin.castLE h)) j = j.castLE h := by
  cases v <;> rfl

/-- Both functions count the training points which have a column as neighbour, plus one. -/
theorem occ_prefix (w : World ℝ) {n m : ℕ} (hm : m ≤ n) (D : Fin n → Fin m → XR ℝ) (s : ℕ) (c : Fin m) :
    occ (markSerial (sampleSel w "distance" s D (Fin.castLE hm))) c + 1 =
      Spec.occurrence Finset.univ (fun i : Fin m => (sampleSel w "distance" s D (Fin.castLE hm) (i.castLE hm)).toFinset) c := by
  rw [occ_mark]
  unfold Spec.occurrence
  congr 1
  symm
  refine Finset.card_bij (fun i _ => i.castLE hm) ?_ ?_ ?_
  · intro i hi
    simp only [Finset.mem_filter, Finset.mem_univ, true_and] at hi ⊢
    exact ⟨by simp, hi⟩
  · intro a _ b _ h
    exact Fin.castLE_injective hm h
  · intro i hi
    simp only [Finset.mem_filter, Finset.mem_univ, true_and] at hi
    exact ⟨⟨i.val, hi.1⟩, by simpa using hi.2, rfl⟩

theorem occIN_prefix (w : World ℝ) {n m : ℕ} (hm : m ≤ n) (D : Fin n → Fin m → XR ℝ) (x : Fin n → Fin m → ℝ)
    (hD : ∀ i j, i ≠ Fin.castLE hm j → D i j = .fin (x i j)) (s : ℕ) (hs : s < m) (c : Fin m) :
    occIN (markSerial (sampleSel w "distance" s D (Fin.castLE hm))) c =
      Spec.occurrence Finset.univ (fun i : Fin m => (sampleSel w "distance" s D (Fin.castLE hm) (i.castLE hm)).toFinset) c := by
  rw [← occ_prefix, occIN_mark, occ_mark]
  have hself : c ∉ (sampleSel w "distance" s D (Fin.castLE hm) (c.castLE hm)).toFinset := by
    intro h
    have := (sampleSel_isHood w "distance" (.inl rfl) s D x (Fin.castLE hm) (Fin.castLE_injective hm) hD hs
      (c.castLE hm)).sub h
    exact (Finset.mem_filter.1 this).2 rfl
  have : Finset.univ.filter (fun i : Fin n => i.val < m ∧
        (i.val = c.val ∨ c ∈ (sampleSel w "distance" s D (Fin.castLE hm) i).toFinset)) =
      insert (c.castLE hm) (Finset.univ.filter (fun i : Fin n => i.val < m ∧
        c ∈ (sampleSel w "distance" s D (Fin.castLE hm) i).toFinset)) := by
    ext i
    simp only [Finset.mem_filter, Finset.mem_univ, true_and, Finset.mem_insert, Fin.ext_iff, Fin.val_castLE]
    constructor
    · rintro ⟨h1, h2 | h2⟩
      · exact .inl h2
      · exact .inr ⟨h1, h2⟩
    · rintro (h | ⟨h1, h2⟩)
      · exact ⟨h ▸ c.isLt, .inl h⟩
      · exact ⟨h1, .inr h2⟩
  rw [this, Finset.card_insert_of_notMem]
  intro h
  exact hself (Finset.mem_filter.1 h).2.2

/-- **C75**/**C78**, the part which holds: if the columns are the first `m` points, then `simhub` and `simhubIN` compare
each test point with the training points, and the occurrences are those among training points. -/
theorem C75_formula_partial (w w' : World ℝ) (hw : w.srt = w'.srt) {n m t : ℕ} (hm : m ≤ n) (D : Fin n → Fin m → XR ℝ)
    (x : Fin n → Fin m → ℝ) (hD : ∀ i j, i ≠ Fin.castLE hm j → D i j = .fin (x i j)) (s : ℕ) (h1 : 1 ≤ s) (hs : s < m)
    (test : Fin t → Fin n) (rd : Bool) (vu nJobs : ℤ) :
    ∃ N : Fin n → Finset (Fin m),
      (∀ i, Spec.IsHood (Spec.nearer "distance") (LS.Spec.otherColumns (Fin.castLE hm) i) (x i) s (N i)) ∧
      simhub w (.mat false n m D) none (some (ints (Fin.castLE hm))) (some (ints test)) s rd vu =
        .ok ⟨t, m, fun a j => .fin (Spec.orDistance rd (Spec.simhub m s
          (Spec.occurrence Finset.univ (fun i : Fin m => N (i.castLE hm))) (fun _ => 1) 1 (N (test a)) (N (j.castLE hm))))⟩ ∧
      simhubIN w' (.mat false n m D) (some (ints (Fin.castLE hm))) (some (ints test)) s rd nJobs =
        simhub w (.mat false n m D) none (some (ints (Fin.castLE hm))) (some (ints test)) s rd vu := by
  have hsel : sampleSel w' "distance" s D (Fin.castLE hm) = sampleSel w "distance" s D (Fin.castLE hm) := by
    funext i; unfold sampleSel; rw [hw]
  refine ⟨fun i => (sampleSel w "distance" s D (Fin.castLE hm) i).toFinset,
    sampleSel_isHood w "distance" (.inl rfl) s D x (Fin.castLE hm) (Fin.castLE_injective hm) hD hs, ?_, ?_⟩
  · rw [simhub_test w hm D _ s h1 hs]
    simp only [partner_prefix, common, occ_prefix, Spec.simhub, mul_one]
  · rw [simhub_test w hm D _ s h1 hs, simhubIN_test w' hm D _ s h1 hs, hsel]
    simp only [partner_prefix, occ_prefix, occIN_prefix w hm D x hD s hs]

/-- **C75**, the part which holds: if the columns are the first `m` points, the result for a test point is determined by
the rows of the training points and its own. -/
theorem C75_partial (w : World ℝ) {n m t : ℕ} (hm : m ≤ n) (D D' : Fin n → Fin m → XR ℝ) (s : ℕ) (h1 : 1 ≤ s)
    (hs : s < m) (test : Fin t → Fin n) (a : Fin t) (htrain : ∀ j : Fin m, D (j.castLE hm) = D' (j.castLE hm))
    (htest : D (test a) = D' (test a)) (rd : Bool) (vu : ℤ) :
    ∃ M M' : Fin t → Fin m → XR ℝ,
      simhub w (.mat false n m D) none (some (ints (Fin.castLE hm))) (some (ints test)) s rd vu = .ok ⟨t, m, M⟩ ∧
      simhub w (.mat false n m D') none (some (ints (Fin.castLE hm))) (some (ints test)) s rd vu = .ok ⟨t, m, M'⟩ ∧
      M a = M' a := by
  refine ⟨_, _, simhub_test w hm D _ s h1 hs test rd vu, simhub_test w hm D' _ s h1 hs test rd vu, ?_⟩
  have hsel : ∀ i, D i = D' i → sampleSel w "distance" s D (Fin.castLE hm) i = sampleSel w "distance" s D' (Fin.castLE hm) i := by
    intro i hi
    unfold sampleSel
    congr 2
    funext j
    rw [setSelf_apply, setSelf_apply, hi]
  funext j
  simp only [partner_prefix, occ_prefix, common, hsel _ htest, hsel _ (htrain _)]

/-- **C78**, the part which holds: if the columns are the first `m` points, all values are in `[0, 1]`. -/
theorem C78_partial (w : World ℝ) {n m t : ℕ} (hm : m ≤ n) (D : Fin n → Fin m → XR ℝ)
    (x : Fin n → Fin m → ℝ) (hD : ∀ i j, i ≠ Fin.castLE hm j → D i j = .fin (x i j)) (s : ℕ) (h1 : 1 ≤ s) (hs : s < m)
    (test : Fin t → Fin n) (rd : Bool) (vu nJobs : ℤ) :
    ∃ v : Fin t → Fin m → ℝ,
      simhub w (.mat false n m D) none (some (ints (Fin.castLE hm))) (some (ints test)) s rd vu =
        .ok ⟨t, m, fun a j => .fin (v a j)⟩ ∧
      simhubIN w (.mat false n m D) (some (ints (Fin.castLE hm))) (some (ints test)) s rd nJobs =
        .ok ⟨t, m, fun a j => .fin (v a j)⟩ ∧
      ∀ a j, 0 ≤ v a j ∧ v a j ≤ 1 := by
  obtain ⟨N, hN, h, h'⟩ := C75_formula_partial w w rfl hm D x hD s h1 hs test rd vu nJobs
  refine ⟨_, h, h'.trans h, ?_⟩
  have hself : ∀ j : Fin m, j ∉ N (j.castLE hm) := fun j hj => (Finset.mem_filter.1 ((hN _).sub hj)).2 rfl
  have ho : ∀ x, 0 < Spec.occurrence Finset.univ (fun i : Fin m => N (i.castLE hm)) x ∧
      Spec.occurrence Finset.univ (fun i : Fin m => N (i.castLE hm)) x ≤ m :=
    fun x => ⟨occurrence_pos _ _ _, occurrence_le _ hself x⟩
  intro a j
  exact orDistance_bounds rd _
    (simhub_nonneg (by omega) h1 _ ho _ 1 one_pos (fun _ => zero_le_one) _ _)
    (simhub_le_one (by omega) h1 _ ho _ 1 one_pos (fun _ => le_rfl) _ _ (hN _).card)

/-- Non-vacuity: three points, the first two being the columns. -/
example (w : World ℝ) := C78_partial w (show 2 ≤ 3 by norm_num)
  (fun i j => .fin ((![![0, 1], ![1, 0], ![3, 4]] : Fin 3 → Fin 2 → ℝ) i j)) _ (fun _ _ _ => rfl) 1 le_rfl (by norm_num)
  (![2] : Fin 1 → Fin 3) true 0 1

end HubToolbox.SNN
