import Verif.SNN.Props
import Verif.LS.Sample

/-!
# `snn_sample` (C33)
-/

set_option autoImplicit false

namespace HubToolbox.SNN

open HubToolbox LS

variable {K : Type} [Field K] [LinearOrder K]

theorem rowsParallel_eq (w : World K) {n s : ℕ} (rows : List (Fin n)) (f : Fin n → Fin s → XR K) :
    rowsParallel w rows f = fillRows rows f := by
  funext i j
  rw [fillRows_apply]
  unfold rowsParallel
  have hmem : ∀ x : (Fin n × Fin s) × XR K,
      x ∈ w.sched (rows.flatMap (fun (i : Fin n) => (List.finRange s).map (fun j => ((i, j), f i j)))) ↔
        ∃ i ∈ rows, ∃ j, x = ((i, j), f i j) := by
    intro x
    rw [(w.sched_perm _).mem_iff, List.mem_flatMap]
    constructor
    · rintro ⟨i, hi, h⟩
      obtain ⟨j, _, rfl⟩ := List.mem_map.1 h
      exact ⟨i, hi, j, rfl⟩
    · rintro ⟨i, hi, j, rfl⟩
      exact ⟨i, hi, List.mem_map.2 ⟨j, List.mem_finRange j, rfl⟩⟩
  by_cases h : i ∈ rows
  · rw [if_pos h]
    refine Sched.exec_of_consistent _ _ _ _ ((hmem _).2 ⟨i, h, j, rfl⟩) ?_
    intro x hx hxa
    obtain ⟨i', _, j', rfl⟩ := (hmem x).1 hx
    obtain ⟨rfl, rfl⟩ := Prod.mk.inj hxa
    rfl
  · rw [if_neg h, Sched.exec_of_notMem]
    intro hx
    obtain ⟨x, hx, hxe⟩ := List.mem_map.1 hx
    obtain ⟨i', hi', j', rfl⟩ := (hmem x).1 hx
    obtain ⟨rfl, rfl⟩ := Prod.mk.inj hxe
    exact h hi'

/-- Columns selected for point `i`. -/
def sampleSel (w : World K) (metric : String) (k : ℤ) {n s : ℕ} (D : Fin n → Fin s → XR K) (idx : Fin s → Fin n)
    (i : Fin n) : List (Fin s) :=
  top metric (w.srt.run (setSelf idx (exclude metric) D i)) k

theorem sample_none (w : World K) {n s : ℕ} (hsn : s ≤ n) (D : Fin n → Fin s → XR K) (idx : Fin s → Fin n) (k : ℤ)
    (metric : String) (hm : metric = "distance" ∨ metric = "similarity") (nJobs : ℤ) :
    snnSample w (.mat false n s D) k metric (some (ints idx)) none nJobs =
      .ok ⟨n, s, fun i j => if i.val = j.val then selfValue metric else
        entry metric k ((sampleSel w metric k D idx i).toFinset ∩ (sampleSel w metric k D idx (idx j)).toFinset).card⟩ := by
  have hc : checkValidMetric metric = .ok () := by rcases hm with rfl | rfl <;> rfl
  have hs : checkSample (.mat false n s D) (some (ints idx)) = .ok ⟨n, s, D, fun j => ((idx j).val : ℤ)⟩ := by
    simp [checkSample, ints, not_lt.2 hsn]
  unfold snnSample
  rw [hs]
  change ((checkValidMetric metric).bind fun _ => _) = _
  rw [hc]
  change (match Np.wrapAll n (fun j => ((idx j).val : ℤ)) with | none => _ | some idx => _) = _
  rw [wrapAll_val]
  simp only [wrapTest, markParallel_eq, rowsParallel_eq, ite_self]
  refine Eq.trans (b := Except.ok _) rfl ?_
  congr 3
  funext i j
  unfold Np.fillDiagonal
  have hmem : i ∈ rowsOf (n := n) none := List.mem_finRange i
  rw [fillRows_apply, if_pos hmem, overlap_mark]
  rfl

theorem sample_some (w : World K) {n s t : ℕ} (hsn : s ≤ n) (D : Fin n → Fin s → XR K) (idx : Fin s → Fin n) (k : ℤ)
    (metric : String) (hm : metric = "distance" ∨ metric = "similarity") (test : Fin t → Fin n) (nJobs : ℤ) :
    snnSample w (.mat false n s D) k metric (some (ints idx)) (some (ints test)) nJobs =
      .ok ⟨t, s, fun a j => if test a = idx j then selfValue metric else
        entry metric k ((sampleSel w metric k D idx (test a)).toFinset ∩
          (sampleSel w metric k D idx (idx j)).toFinset).card⟩ := by
  have hc : checkValidMetric metric = .ok () := by rcases hm with rfl | rfl <;> rfl
  have hs : checkSample (.mat false n s D) (some (ints idx)) = .ok ⟨n, s, D, fun j => ((idx j).val : ℤ)⟩ := by
    simp [checkSample, ints, not_lt.2 hsn]
  have hwt : wrapTest n (some (ints test)) = .ok (some ⟨t, test⟩) := by
    unfold wrapTest
    change (match Np.wrapAll n (fun j => ((test j).val : ℤ)) with | none => _ | some idx => _) = _
    rw [wrapAll_val]
  unfold snnSample
  rw [hs]
  change ((checkValidMetric metric).bind fun _ => _) = _
  rw [hc]
  change (match Np.wrapAll n (fun j => ((idx j).val : ℤ)) with | none => _ | some idx => _) = _
  rw [wrapAll_val]
  simp only [hwt, markParallel_eq, rowsParallel_eq, ite_self]
  refine Eq.trans (b := Except.ok _) rfl ?_
  congr 3
  funext a j
  have hmem : test a ∈ rowsOf (some ⟨t, test⟩) := by
    change test a ∈ List.ofFn test
    rw [List.mem_ofFn]; exact ⟨a, rfl⟩
  rw [setSelf_apply, fillRows_apply, if_pos hmem, overlap_mark]
  rfl

variable [IsStrictOrderedRing K]

theorem sampleSel_isHood (w : World K) (metric : String) (hm : metric = "distance" ∨ metric = "similarity") (k : ℕ)
    {n s : ℕ} (D : Fin n → Fin s → XR K) (x : Fin n → Fin s → K) (idx : Fin s → Fin n)
    (hidx : Function.Injective idx) (hD : ∀ i j, i ≠ idx j → D i j = .fin (x i j)) (hk : k < s) (i : Fin n) :
    Spec.IsHood (Spec.nearer metric) (LS.Spec.otherColumns idx i) (x i) k (sampleSel w metric k D idx i).toFinset := by
  refine (sort_sel w.srt metric hm k hk.le _).isHood hm _ _ ?_ ?_ ?_
  · intro j hj
    have hj : idx j ≠ i := (Finset.mem_filter.1 hj).2
    rw [setSelf_apply, if_neg (Ne.symm hj), hD i j (Ne.symm hj)]
  · intro j hj
    have hj : idx j = i := by
      by_contra h
      exact hj (Finset.mem_filter.2 ⟨Finset.mem_univ _, h⟩)
    rw [setSelf_apply, if_pos hj.symm]
  · have h1 : (Finset.univ.filter (fun j => idx j = i)).card ≤ 1 := by
      rw [Finset.card_le_one]
      intro a ha b hb
      exact hidx ((Finset.mem_filter.1 ha).2.trans (Finset.mem_filter.1 hb).2.symm)
    have h2 := Finset.card_filter_add_card_filter_not (s := (Finset.univ : Finset (Fin s))) (fun j => idx j = i)
    rw [Finset.card_univ, Fintype.card_fin] at h2
    unfold LS.Spec.otherColumns
    have h3 : (Finset.univ.filter (fun j => idx j ≠ i)).card = (Finset.univ.filter (fun j => ¬ idx j = i)).card := rfl
    omega

/-- **C33**, the part which holds for `snn_sample`: with `test_ind`, the result for a test point and the column of another
point is given by the common neighbours among the columns, no point being its own neighbour. -/
theorem C33_snn_test_partial (w : World K) {n s t : ℕ} (hsn : s ≤ n) (D : Fin n → Fin s → XR K) (x : Fin n → Fin s → K)
    (idx : Fin s → Fin n) (hidx : Function.Injective idx) (hD : ∀ i j, i ≠ idx j → D i j = .fin (x i j))
    (k : ℕ) (h1 : 1 ≤ k) (hk : k < s) (metric : String) (hm : metric = "distance" ∨ metric = "similarity")
    (test : Fin t → Fin n) (nJobs : ℤ) :
    ∃ N : Fin n → Finset (Fin s),
      (∀ i, Spec.IsHood (Spec.nearer metric) (LS.Spec.otherColumns idx i) (x i) k (N i)) ∧
      snnSample w (.mat false n s D) k metric (some (ints idx)) (some (ints test)) nJobs =
        .ok ⟨t, s, fun a j => .fin (if test a = idx j then Spec.snnSelf metric else
          Spec.snn metric (N (test a)) (N (idx j)) k)⟩ := by
  refine ⟨fun i => (sampleSel w metric k D idx i).toFinset, sampleSel_isHood w metric hm k D x idx hidx hD hk, ?_⟩
  rw [sample_some w hsn D idx k metric hm]
  congr 3
  funext a j
  rw [entry_fin metric hm k h1, selfValue_eq]
  split <;> rfl

/-- **C33**, the part which holds for `snn_sample` without `test_ind`: everything outside of the positions `(j, j)` is
right (also at `(train_ind[j], j)`, where the neighbourhoods coincide). -/
theorem C33_snn_all_partial (w : World K) {n s : ℕ} (hsn : s ≤ n) (D : Fin n → Fin s → XR K) (x : Fin n → Fin s → K)
    (idx : Fin s → Fin n) (hidx : Function.Injective idx) (hD : ∀ i j, i ≠ idx j → D i j = .fin (x i j))
    (k : ℕ) (h1 : 1 ≤ k) (hk : k < s) (metric : String) (hm : metric = "distance" ∨ metric = "similarity")
    (nJobs : ℤ) :
    ∃ (N : Fin n → Finset (Fin s)) (M : Fin n → Fin s → XR K),
      (∀ i, Spec.IsHood (Spec.nearer metric) (LS.Spec.otherColumns idx i) (x i) k (N i)) ∧
      snnSample w (.mat false n s D) k metric (some (ints idx)) none nJobs = .ok ⟨n, s, M⟩ ∧
      (∀ i j, i.val ≠ j.val → M i j = .fin (Spec.snn metric (N i) (N (idx j)) k)) ∧
      ∀ j, M (idx j) j = .fin (Spec.snnSelf metric) := by
  have hN := sampleSel_isHood w metric hm k D x idx hidx hD hk
  refine ⟨fun i => (sampleSel w metric k D idx i).toFinset, _, hN, sample_none w hsn D idx k metric hm nJobs, ?_, ?_⟩
  · intro i j hij
    rw [if_neg hij, entry_fin metric hm k h1]
  · intro j
    split
    · exact selfValue_eq metric
    · have hk0 : (k : K) ≠ 0 := Nat.cast_ne_zero.2 (by omega)
      rw [entry_fin metric hm k h1]
      unfold Spec.snn Spec.commonFraction Spec.snnSelf
      rw [Finset.inter_self, (hN (idx j)).card, div_self hk0, sub_self]

/-- **C33** is violated by `snn_sample` without `test_ind`: position `(j, j)` always holds the self value, although row `j`
is not the point of column `j` unless `train_ind[j] = j`. -/
theorem C33_snn_violated (w : World K) {n s : ℕ} (hsn : s ≤ n) (D : Fin n → Fin s → XR K) (idx : Fin s → Fin n)
    (k : ℤ) (metric : String) (hm : metric = "distance" ∨ metric = "similarity") (nJobs : ℤ) :
    ∃ M : Fin n → Fin s → XR K,
      snnSample w (.mat false n s D) k metric (some (ints idx)) none nJobs = .ok ⟨n, s, M⟩ ∧
      ∀ j, M (Fin.castLE hsn j) j = .fin (Spec.snnSelf metric) := by
  refine ⟨_, sample_none w hsn D idx k metric hm nJobs, ?_⟩
  intro j
  rw [if_pos (by simp), selfValue_eq]

/-- Witness: training points 1, 2, 3 of four points on a line (`line4`), `k = 1`. Points 0 and 1 have different nearest
training points, so their distance should be one; the code reports zero. With `test_ind` it reports one. -/
example :
    ∃ M : Fin 4 → Fin 3 → XR ℚ,
      snnSample (revWorld ℚ) (.mat false 4 3 (fun i j => .fin (line4 i j.succ))) 1 "distance"
        (some (ints (Fin.succ : Fin 3 → Fin 4))) none 1 = .ok ⟨4, 3, M⟩ ∧ M 0 0 = .fin 0 ∧
      snnSample (revWorld ℚ) (.mat false 4 3 (fun i j => .fin (line4 i j.succ))) 1 "distance"
        (some (ints (Fin.succ : Fin 3 → Fin 4))) (some (ints (![0] : Fin 1 → Fin 4))) 1 =
          .ok ⟨1, 3, fun _ j => .fin ((![1, 0, 1] : Fin 3 → ℚ) j)⟩ := by
  obtain ⟨M, hM, h0⟩ := C33_snn_violated (revWorld ℚ) (by norm_num) (fun i j => .fin (line4 i j.succ)) Fin.succ 1
    "distance" (.inl rfl) 1
  refine ⟨M, hM, h0 0, ?_⟩
  rw [sample_some (revWorld ℚ) (by norm_num) _ Fin.succ 1 "distance" (.inl rfl) (![0] : Fin 1 → Fin 4) 1]
  congr 3
  funext a j
  revert a j
  decide +kernel

end HubToolbox.SNN
