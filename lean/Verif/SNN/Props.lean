import Verif.SNN.Lemmas
import Mathlib.Algebra.Order.Ring.Cast
import Mathlib.Algebra.Order.Field.Rat
import Mathlib.Algebra.Order.Field.Basic
import Mathlib.Tactic.FieldSimp
import Mathlib.Tactic.NormNum

/-!
# Properties of `shared_nearest_neighbors` (C34, C72, C73)
-/

set_option autoImplicit false

namespace HubToolbox.SNN

open HubToolbox

variable {K : Type} [Field K] [LinearOrder K] [IsStrictOrderedRing K]

theorem entry_fin (metric : String) (hm : metric = "distance" ∨ metric = "similarity") (k : ℕ) (hk : 1 ≤ k) {n : ℕ}
    (N N' : Finset (Fin n)) :
    (entry metric (k : ℤ) (N ∩ N').card : XR K) = .fin (Spec.snn metric N N' k) := by
  have hk0 : k ≠ 0 := by omega
  unfold entry Spec.snn Spec.commonFraction
  rcases hm with rfl | rfl
  · simp [XR.div, XR.sub, XR.neg, XR.add, sub_eq_add_neg, hk0]
  · simp [XR.div, hk0]

theorem selfValue_eq (metric : String) : (selfValue metric : XR K) = .fin (Spec.snnSelf metric) := by
  unfold selfValue Spec.snnSelf; split <;> rfl

theorem call_eq (w : World K) {n : ℕ} (D : Fin n → Fin n → XR K) (k : ℤ) (metric : String)
    (hm : metric = "distance" ∨ metric = "similarity") (nJobs : ℤ) :
    sharedNearestNeighbors w (.mat false n n D) k metric nJobs =
      (Np.tabulateM (fun i => hood w.part metric (kthOf metric n k) k (Np.fillDiagonal D (exclude metric) i))).map
        (fun sel => ⟨n, result metric k sel⟩) := by
  have hc : checkValidMetric metric = .ok () := by rcases hm with rfl | rfl <;> rfl
  unfold sharedNearestNeighbors
  simp only [PyMat.checkSquare, dif_pos rfl]
  change ((checkValidMetric metric).bind fun _ => _) = _
  rw [hc]
  change ((core w D k metric nJobs).bind fun M => _) = _
  rw [core_eq]
  cases Np.tabulateM (fun i => hood w.part metric (kthOf metric n k) k (Np.fillDiagonal D (exclude metric) i)) <;> rfl

theorem call_of_sel (w : World K) {n : ℕ} (D : Fin n → Fin n → XR K) (k : ℤ) (metric : String)
    (hm : metric = "distance" ∨ metric = "similarity") (nJobs : ℤ) (sel : Fin n → List (Fin n))
    (h : ∀ i, hood w.part metric (kthOf metric n k) k (Np.fillDiagonal D (exclude metric) i) = .ok (sel i)) :
    sharedNearestNeighbors w (.mat false n n D) k metric nJobs = .ok ⟨n, result metric k sel⟩ := by
  rw [call_eq w D k metric hm]
  simp only [h]
  rw [Np.tabulateM_ok]
  rfl

/-- **C34**: for every valid neighbourhood size, `shared_nearest_neighbors` returns the fraction of common true `k`-nearest
neighbours (similarity) or one minus it (distance); a point is never its own neighbour. Ties, schedules and the
number of processes are arbitrary; the diagonal of the input is irrelevant. -/
theorem C34_formula (w : World K) {n : ℕ} (D : Fin n → Fin n → XR K) (x : Fin n → Fin n → K)
    (hD : ∀ i j, i ≠ j → D i j = .fin (x i j)) (k : ℕ) (h1 : 1 ≤ k) (hk : k < n) (metric : String)
    (hm : metric = "distance" ∨ metric = "similarity") (nJobs : ℤ) :
    ∃ N : Fin n → Finset (Fin n),
      (∀ i, Spec.IsHood (Spec.nearer metric) (Finset.univ.erase i) (x i) k (N i)) ∧
      sharedNearestNeighbors w (.mat false n n D) k metric nJobs =
        .ok ⟨n, fun i j => .fin (if i = j then Spec.snnSelf metric else Spec.snn metric (N i) (N j) k)⟩ := by
  choose L hL hsel using fun i => hood_sel w.part metric hm k h1 hk (Np.fillDiagonal D (exclude metric) i)
  refine ⟨fun i => (L i).toFinset, fun i => ?_, ?_⟩
  · refine (hsel i).isHood hm _ _ ?_ ?_ ?_
    · intro j hj
      have hij : j ≠ i := (Finset.mem_erase.1 hj).1
      unfold Np.fillDiagonal
      rw [if_neg (fun h : i.val = j.val => hij (Fin.ext h).symm), hD i j hij.symm]
    · intro j hj
      have hij : j = i := by by_contra h; exact hj (Finset.mem_erase.2 ⟨h, Finset.mem_univ _⟩)
      unfold Np.fillDiagonal
      rw [if_pos (by rw [hij])]
    · rw [Finset.card_erase_of_mem (Finset.mem_univ i), Finset.card_univ, Fintype.card_fin]; omega
  · rw [call_of_sel w D k metric hm nJobs L hL]
    congr 2
    funext i j
    unfold result
    rw [entry_fin metric hm k h1, selfValue_eq]
    split <;> rfl

/-- **C34**: without ties the neighbourhoods, and so the result, are determined by the data. -/
theorem C34_determined (w : World K) {n : ℕ} (D : Fin n → Fin n → XR K) (x : Fin n → Fin n → K)
    (hD : ∀ i j, i ≠ j → D i j = .fin (x i j)) (hties : ∀ i a b, a ≠ i → b ≠ i → x i a = x i b → a = b)
    (k : ℕ) (h1 : 1 ≤ k) (hk : k < n) (metric : String)
    (hm : metric = "distance" ∨ metric = "similarity") (nJobs : ℤ) (N : Fin n → Finset (Fin n))
    (hN : ∀ i, Spec.IsHood (Spec.nearer metric) (Finset.univ.erase i) (x i) k (N i)) :
    sharedNearestNeighbors w (.mat false n n D) k metric nJobs =
      .ok ⟨n, fun i j => .fin (if i = j then Spec.snnSelf metric else Spec.snn metric (N i) (N j) k)⟩ := by
  obtain ⟨N', hN', h⟩ := C34_formula w D x hD k h1 hk metric hm nJobs
  have : N' = N := by
    funext i
    refine IsHood.unique (hN' i) (hN i) ?_
    intro a ha b hb hab
    simp only [Finset.coe_erase, Finset.coe_univ, Set.mem_diff, Set.mem_univ, Set.mem_singleton_iff, true_and] at ha hb
    exact hties i a b ha hb hab
  rw [h, this]

theorem snn_symm (metric : String) {n : ℕ} (N N' : Finset (Fin n)) (k : ℕ) :
    (Spec.snn metric N N' k : K) = Spec.snn metric N' N k := by
  unfold Spec.snn Spec.commonFraction; rw [Finset.inter_comm]

/-- **C34**: the result is symmetric, has the right diagonal, and all entries are among `0/k, 1/k, …, k/k`. -/
theorem C34_valid (w : World K) {n : ℕ} (D : Fin n → Fin n → XR K) (x : Fin n → Fin n → K)
    (hD : ∀ i j, i ≠ j → D i j = .fin (x i j)) (k : ℕ) (h1 : 1 ≤ k) (hk : k < n) (metric : String)
    (hm : metric = "distance" ∨ metric = "similarity") (nJobs : ℤ) :
    ∃ M : Fin n → Fin n → XR K,
      sharedNearestNeighbors w (.mat false n n D) k metric nJobs = .ok ⟨n, M⟩ ∧
      (∀ i j, M i j = M j i) ∧ (∀ i, M i i = .fin (Spec.snnSelf metric)) ∧
      ∀ i j, ∃ c : ℕ, c ≤ k ∧ M i j = .fin ((c : K) / k) := by
  obtain ⟨N, hN, h⟩ := C34_formula w D x hD k h1 hk metric hm nJobs
  have hk0 : (k : K) ≠ 0 := Nat.cast_ne_zero.2 (by omega)
  refine ⟨_, h, ?_, ?_, ?_⟩
  · intro i j
    by_cases hij : i = j
    · simp [hij]
    · rw [if_neg hij, if_neg (Ne.symm hij), snn_symm]
  · intro i; rw [if_pos rfl]
  · intro i j
    by_cases hij : i = j
    · rw [if_pos hij]
      unfold Spec.snnSelf
      by_cases hmm : metric = "similarity"
      · exact ⟨k, le_rfl, by rw [if_pos hmm, div_self hk0]⟩
      · exact ⟨0, by omega, by rw [if_neg hmm]; simp⟩
    · rw [if_neg hij]
      have hle : (N i ∩ N j).card ≤ k := by
        rw [← (hN i).card]; exact Finset.card_le_card Finset.inter_subset_left
      unfold Spec.snn Spec.commonFraction
      by_cases hmm : metric = "similarity"
      · exact ⟨_, hle, by rw [if_pos hmm]⟩
      · refine ⟨k - (N i ∩ N j).card, by omega, ?_⟩
        rw [if_neg hmm, Nat.cast_sub hle, sub_div, div_self hk0]

/-- The neighbourhoods only depend on the order of the values. -/
theorem isHood_transfer {n : ℕ} (metric metric' : String) (i : Fin n) (x x' : Fin n → K)
    (h : ∀ a b, a ≠ i → b ≠ i → (Spec.nearer metric (x a) (x b) → Spec.nearer metric' (x' a) (x' b))) (k : ℕ)
    (N : Finset (Fin n)) (hN : Spec.IsHood (Spec.nearer metric) (Finset.univ.erase i) x k N) :
    Spec.IsHood (Spec.nearer metric') (Finset.univ.erase i) x' k N :=
  ⟨hN.sub, hN.card, fun a ha b hb hbn => h a b (Finset.mem_erase.1 (hN.sub ha)).1 (Finset.mem_erase.1 hb).1
    (hN.best a ha b hb hbn)⟩

/-- **C34**: the distance result for `x` and the similarity result for any data `y` with the opposite order (without ties)
sum to one, entry by entry. -/
theorem C34_sum_one (w w' : World K) {n : ℕ} (x y : Fin n → Fin n → K)
    (hxy : ∀ i a b, a ≠ i → b ≠ i → (x i a < x i b ↔ y i b < y i a))
    (hties : ∀ i a b, a ≠ i → b ≠ i → x i a = x i b → a = b)
    (k : ℕ) (h1 : 1 ≤ k) (hk : k < n) (nJobs nJobs' : ℤ) :
    ∃ M M' : Fin n → Fin n → K,
      sharedNearestNeighbors w (.mat false n n (fun i j => .fin (x i j))) k "distance" nJobs =
        .ok ⟨n, fun i j => .fin (M i j)⟩ ∧
      sharedNearestNeighbors w' (.mat false n n (fun i j => .fin (y i j))) k "similarity" nJobs' =
        .ok ⟨n, fun i j => .fin (M' i j)⟩ ∧
      ∀ i j, M i j + M' i j = 1 := by
  obtain ⟨N, hN, h⟩ := C34_formula w (fun i j => .fin (x i j)) x (fun _ _ _ => rfl) k h1 hk "distance" (.inl rfl) nJobs
  have hy : ∀ i, Spec.IsHood (Spec.nearer "similarity") (Finset.univ.erase i) (y i) k (N i) := by
    intro i
    refine isHood_transfer _ _ i (x i) (y i) ?_ k _ (hN i)
    intro a b ha hb hab
    simp only [Spec.nearer, if_neg (show ¬ ("distance" = "similarity") by decide), if_true] at hab ⊢
    rcases lt_or_eq_of_le hab with hab | hab
    · exact ((hxy i a b ha hb).1 hab).le
    · rw [hties i a b ha hb hab]
  have hyt : ∀ i a b, a ≠ i → b ≠ i → y i a = y i b → a = b := by
    intro i a b ha hb hab
    apply hties i a b ha hb
    refine le_antisymm (not_lt.1 fun hlt => ?_) (not_lt.1 fun hlt => ?_)
    · exact absurd ((hxy i b a hb ha).1 hlt) (by rw [hab]; exact lt_irrefl _)
    · exact absurd ((hxy i a b ha hb).1 hlt) (by rw [hab]; exact lt_irrefl _)
  have h' := C34_determined w' (fun i j => .fin (y i j)) y (fun _ _ _ => rfl) hyt k h1 hk "similarity" (.inr rfl) nJobs' N hy
  refine ⟨_, _, h, h', ?_⟩
  intro i j
  by_cases hij : i = j
  · simp [hij, Spec.snnSelf]
  · simp [hij, Spec.snn]

/-- **C34**: number of processes, number of CPUs and schedule do not matter, for every argument. -/
theorem C34_parallel (w w' : World K) (hp : w.part = w'.part) (D : PyMat (XR K)) (k : ℤ) (metric : String)
    (nJobs nJobs' : ℤ) :
    sharedNearestNeighbors w D k metric nJobs = sharedNearestNeighbors w' D k metric nJobs' := by
  unfold sharedNearestNeighbors
  simp only [core_eq, hp]

/-- **C72**: the result is unchanged by any transformation of the values which keeps the order within each row (no ties). -/
theorem C72_order_invariant (w w' : World K) {n : ℕ} (x y : Fin n → Fin n → K)
    (hxy : ∀ i a b, a ≠ i → b ≠ i → (x i a < x i b ↔ y i a < y i b))
    (hties : ∀ i a b, a ≠ i → b ≠ i → x i a = x i b → a = b)
    (k : ℕ) (h1 : 1 ≤ k) (hk : k < n) (metric : String) (hm : metric = "distance" ∨ metric = "similarity")
    (nJobs nJobs' : ℤ) :
    sharedNearestNeighbors w (.mat false n n (fun i j => .fin (x i j))) k metric nJobs =
      sharedNearestNeighbors w' (.mat false n n (fun i j => .fin (y i j))) k metric nJobs' := by
  obtain ⟨N, hN, h⟩ := C34_formula w' (fun i j => .fin (y i j)) y (fun _ _ _ => rfl) k h1 hk metric hm nJobs'
  rw [h]
  refine C34_determined w _ x (fun _ _ _ => rfl) hties k h1 hk metric hm nJobs N ?_
  intro i
  refine isHood_transfer _ _ i (y i) (x i) ?_ k _ (hN i)
  intro a b ha hb hab
  unfold Spec.nearer at hab ⊢
  split at hab
  · rw [if_pos ‹_›]; exact not_lt.1 fun hlt => absurd ((hxy i a b ha hb).1 hlt) (not_lt.2 hab)
  · rw [if_neg ‹_›]; exact not_lt.1 fun hlt => absurd ((hxy i b a hb ha).1 hlt) (not_lt.2 hab)

/-! ### Neighbourhood sizes without meaning (C73) -/

/-- **C73** is violated: `k = 0` gives a matrix of `nan` for distances, and `k = n` gives similarity one for all pairs;
no error is raised. -/
theorem C73_violated (w : World K) {n : ℕ} (hn : 1 ≤ n) (D : Fin n → Fin n → XR K) (nJobs : ℤ) :
    sharedNearestNeighbors w (.mat false n n D) 0 "distance" nJobs =
      .ok ⟨n, fun i j => if i = j then .fin 0 else .nan⟩ ∧
    sharedNearestNeighbors w (.mat false n n D) n "similarity" nJobs = .ok ⟨n, fun _ _ => .fin 1⟩ := by
  constructor
  · choose L hL hsel using fun i => hood_distance w.part 0 (by omega) (Np.fillDiagonal D (exclude "distance") i)
    rw [call_of_sel w D 0 "distance" (.inl rfl) nJobs L hL]
    congr 2
    funext i j
    have : ∀ i, L i = [] := fun i => List.length_eq_zero_iff.1 (hsel i).length
    unfold result
    simp only [this]
    simp [selfValue, entry, XR.div, XR.infMul, XR.sub, XR.neg, XR.add]
  · choose L hL hsel using fun i => hood_similarity w.part n hn le_rfl (Np.fillDiagonal D (exclude "similarity") i)
    rw [call_of_sel w D n "similarity" (.inr rfl) nJobs L hL]
    congr 2
    funext i j
    have : ∀ i, (L i).toFinset = Finset.univ := by
      intro i
      rw [← Finset.card_eq_iff_eq_univ, List.toFinset_card_of_nodup (hsel i).nodup, (hsel i).length, Fintype.card_fin]
    have hn0 : (n : K) ≠ 0 := Nat.cast_ne_zero.2 (by omega)
    unfold result
    simp only [this]
    simp [selfValue, entry, XR.div, hn0]

/-- **C73**, the part which holds: distances with `k ≥ n` and similarities with `k ≤ 0` raise `ValueError`. -/
theorem C73_partial (w : World K) {n : ℕ} (hn : 1 ≤ n) (D : Fin n → Fin n → XR K) (k : ℤ) (metric : String)
    (h : (metric = "distance" ∧ (n : ℤ) ≤ k) ∨ (metric = "similarity" ∧ k ≤ 0)) (nJobs : ℤ) :
    sharedNearestNeighbors w (.mat false n n D) k metric nJobs = .error .valueError := by
  have hm : metric = "distance" ∨ metric = "similarity" := by tauto
  have hw : Np.wrap n (kthOf metric n k) = none := by
    rcases h with ⟨rfl, h⟩ | ⟨rfl, h⟩
    · simp only [kthOf, if_neg (show ¬ ("distance" = "similarity") by decide), Np.wrap]
      rw [dif_neg (by omega), dif_neg (by omega)]
    · simp only [kthOf, if_true, Np.wrap]
      rw [dif_neg (by omega), dif_neg (by omega)]
  have hh : ∀ d : Fin n → XR K, hood w.part metric (kthOf metric n k) k d = .error .valueError := by
    intro d
    unfold hood Np.argpartition
    rw [Np.wrapAll_const, hw]
    rfl
  rw [call_eq w D k metric hm]
  simp only [hh]
  rw [Np.tabulateM_error (by omega)]
  rfl

/-! ### Witnesses -/

/-- Two processes, complete sorts, reversed order of stores. -/
def revWorld (K : Type) [LinearOrder K] : World K where
  cpu := 2
  cpu_pos := by norm_num
  part := ArgPart.ofInsertion _
  srt := Knn.ArgSort.ofSort _
  sched l := l.reverse
  sched_perm l := List.reverse_perm l

/-- Four points on a line at 0, 1, 3, 7. -/
def line4 : Fin 4 → Fin 4 → ℚ := ![![0, 1, 3, 7], ![1, 0, 2, 6], ![3, 2, 0, 4], ![7, 6, 4, 0]]

/-- The hypotheses of the theorems are met by `line4`, with `k = 2`; neighbourhoods and values are not trivial. -/
example : (∀ i a b, a ≠ i → b ≠ i → line4 i a = line4 i b → a = b) ∧
    sharedNearestNeighbors (revWorld ℚ) (.mat false 4 4 (fun i j => .fin (line4 i j))) 2 "distance" (-1) =
      .ok ⟨4, fun i j => .fin ((![![0, 1/2, 1/2, 0], ![1/2, 0, 1/2, 1/2], ![1/2, 1/2, 0, 1/2], ![0, 1/2, 1/2, 0]] :
        Fin 4 → Fin 4 → ℚ) i j)⟩ := by
  have ht : ∀ i a b, a ≠ i → b ≠ i → line4 i a = line4 i b → a = b := by decide +kernel
  refine ⟨ht, ?_⟩
  have := C34_determined (revWorld ℚ) (fun i j => .fin (line4 i j)) line4 (fun _ _ _ => rfl) ht 2 (by norm_num)
    (by norm_num) "distance" (.inl rfl) (-1) ![{1, 2}, {0, 2}, {1, 0}, {1, 2}]
    (by
      intro i
      refine ⟨?_, ?_, ?_⟩
      · fin_cases i <;> decide
      · fin_cases i <;> decide
      · simp only [Spec.nearer, if_neg (show ¬ ("distance" = "similarity") by decide)]
        revert i; decide +kernel)
  rw [show ((2 : ℕ) : ℤ) = 2 from rfl] at this
  rw [this]
  congr 2
  funext i j
  congr 1
  revert i j
  decide +kernel

end HubToolbox.SNN
