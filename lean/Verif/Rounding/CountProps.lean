import Verif.Rounding.Count

/-!
# C182 and C183
-/

set_option autoImplicit false

namespace HubToolbox.Rounding

open HubToolbox

section
variable {K : Type} [Field K] [LinearOrder K] [IsStrictOrderedRing K]

/-! ### Empirical Mutual Proximity -/

/-- The number of objects counted for a pair; all objects for a pair of equal objects. -/
def mpCount {n : ℕ} (metric : String) (D : Fin n → Fin n → XR K) (i j : Fin n) : ℕ :=
  let D' := Np.fillDiagonal D (MPEmp.excludeValue metric)
  let f := fun (a b : Fin n) => if metric = "similarity" then
      Np.countTrue (fun x => decide (XR.fle (D' a x) (D b a)) && decide (XR.fle (D' b x) (D b a)))
    else Np.countTrue (fun x => decide (XR.flt (D b a) (D' a x)) && decide (XR.flt (D b a) (D' b x)))
  if i = j then n else if i < j then f i j else f j i

omit [IsStrictOrderedRing K] in
theorem mpCount_le {n : ℕ} (metric : String) (D : Fin n → Fin n → XR K) (i j : Fin n) : mpCount metric D i j ≤ n := by
  have key : ∀ p : Fin n → Bool, Np.countTrue p ≤ n := by
    intro p
    rw [Np.countTrue_eq_card]
    exact (Finset.card_le_univ _).trans (by simp)
  unfold mpCount
  simp only
  split_ifs <;> first | exact le_rfl | exact key _

omit [IsStrictOrderedRing K] in
theorem mpCount_symm {n : ℕ} (metric : String) (D : Fin n → Fin n → XR K) (i j : Fin n) :
    mpCount metric D i j = mpCount metric D j i := by
  unfold mpCount
  simp only
  rcases lt_trichotomy i j with h | h | h
  · rw [if_neg h.ne, if_pos h, if_neg h.ne', if_neg h.not_gt]
  · subst h; rfl
  · rw [if_neg h.ne', if_neg h.not_gt, if_neg h.ne, if_pos h]

variable {R S : Rounding K}

theorem val_self (metric : String) {n : ℕ} (h0 : 0 < n) (hn : R.rnd (n : K) = .fin n) :
    R.val S metric n n = .fin (MPEmp.selfValue metric) := by
  have hn0 : (n : K) ≠ 0 := by exact_mod_cast h0.ne'
  have hr : R.ratio n n = .fin 1 := by
    unfold ratio div ofNat
    rw [hn]
    simp only [XR.div, if_neg hn0, div_self hn0]
    exact R.one
  unfold val simVal distVal MPEmp.selfValue
  rw [hr]
  split
  · exact S.one
  · have : XR.sub (.fin 1) (.fin 1) = (.fin 0 : XR K) := by simp [XR.sub, XR.neg, XR.add]
    unfold sub
    rw [this]
    change S.up (R.rnd 0) = _
    rw [R.zero]
    exact S.zero

theorem mpDense_apply {n : ℕ} (metric : String) (D : Fin n → Fin n → XR K) (h0 : 0 < n) (hn : R.rnd (n : K) = .fin n)
    (i j : Fin n) : R.mpDense S metric D i j = R.val S metric (mpCount metric D i j) n := by
  unfold mpDense
  simp only [Np.fillDiagonal, MPEmp.foldl_setRowFrom, MPEmp.mem_take_finRange]
  have hval : ∀ a b : Fin n, a ≠ b → S.up (R.mpEntry metric (Np.fillDiagonal D (MPEmp.excludeValue metric) a)
      (Np.fillDiagonal D (MPEmp.excludeValue metric) b) (D b a)) = R.val S metric (if metric = "similarity" then
      Np.countTrue (fun x => decide (XR.fle (Np.fillDiagonal D (MPEmp.excludeValue metric) a x) (D b a)) &&
        decide (XR.fle (Np.fillDiagonal D (MPEmp.excludeValue metric) b x) (D b a)))
    else Np.countTrue (fun x => decide (XR.flt (D b a) (Np.fillDiagonal D (MPEmp.excludeValue metric) a x)) &&
      decide (XR.flt (D b a) (Np.fillDiagonal D (MPEmp.excludeValue metric) b x)))) n := by
    intro a b hab
    unfold mpEntry val simVal distVal
    split_ifs <;> rfl
  rcases lt_trichotomy i j with h | h | h
  · have h' : i.val < j.val := h
    rw [if_neg (by omega), if_pos (by omega), if_neg (by omega), if_neg (by omega), add_zero_up]
    refine (hval i j h.ne).trans ?_
    unfold mpCount
    simp only [if_neg h.ne, if_pos h]
  · subst h
    rw [if_pos rfl]
    unfold mpCount
    rw [if_pos rfl, val_self metric h0 hn]
  · have h' : j.val < i.val := h
    rw [if_neg (by omega), if_neg (by omega), if_pos (by omega), zero_add_up, if_neg (by omega)]
    refine (hval j i h.ne).trans ?_
    unfold mpCount
    simp only [if_neg h.ne', if_neg h.not_gt]

theorem fullDense_count {n : ℕ} (metric : String) (D : Fin n → Fin n → XR K) (i j : Fin n) :
    MPEmp.fullDense metric D i j =
      if metric = "similarity" then (mpCount metric D i j : K) / n else 1 - (mpCount metric D i j : K) / n := by
  have h0 : (n : K) ≠ 0 := by have := i.pos; exact_mod_cast this.ne'
  rw [MPEmp.fullDense_apply]
  unfold mpCount MPEmp.entry MPEmp.selfValue
  by_cases hij : i = j
  · simp only [if_pos hij, div_self h0]; split_ifs <;> simp
  · simp only [if_neg hij]
    split_ifs <;> rfl

theorem mpEmpiric_inv {n : ℕ} {D : Fin n → Fin n → XR K} {sp : Bool} {metric : String} {test : Option MPEmp.TestArg}
    {M : Fin n → Fin n → XR K} (h : R.mpEmpiric S (.mat sp n n D) metric test = .ok ⟨n, M⟩) :
    M = R.mpDense S metric D ∧ MPEmp.fullChecks false metric test = .ok () := by
  unfold mpEmpiric at h
  simp only [dif_pos] at h
  cases hc : MPEmp.fullChecks false metric test with
  | error e => rw [hc] at h; cases h
  | ok u =>
    rw [hc] at h
    have h2 := Except.ok.inj h
    injection h2 with _ h3
    exact ⟨h3.symm, rfl⟩

/-- **C182.** In floating point arithmetic, too, the result is exactly symmetric, without `nan`, in the unit interval, and
has the right self values: for every monotone rounding in which the number of objects is a float. -/
theorem C182_valid {n : ℕ} (D : Fin n → Fin n → XR K) (sp : Bool) (metric : String) (test : Option MPEmp.TestArg)
    (M : Fin n → Fin n → XR K) (h : R.mpEmpiric S (.mat sp n n D) metric test = .ok ⟨n, M⟩)
    (hn : R.rnd (n : K) = .fin n) :
    (∀ i j, M i j = M j i) ∧ (∀ i j, ∃ x, M i j = .fin x ∧ 0 ≤ x ∧ x ≤ 1) ∧
    ∀ i, M i i = .fin (if metric = "similarity" then 1 else 0) := by
  obtain ⟨rfl, -⟩ := mpEmpiric_inv h
  refine ⟨fun i j => ?_, fun i j => ?_, fun i => ?_⟩
  · rw [mpDense_apply metric D i.pos hn, mpDense_apply metric D i.pos hn, mpCount_symm]
  · rw [mpDense_apply metric D i.pos hn]
    exact val_unit metric (mpCount_le metric D i j) i.pos hn
  · unfold mpDense
    simp only [Np.fillDiagonal, if_true]
    rfl

/-- Without rounding this is the model of `Verif/MPEmp/Model.lean`. -/
theorem mpEmpiric_exact (order : ∀ n, (Fin n → Fin n → K) → List (Fin n × Fin n)) {n : ℕ} (D : Fin n → Fin n → XR K)
    (sp : Bool) (metric : String) (test : Option MPEmp.TestArg) (minNnz : ℤ) (E : Fin n → Fin n → K)
    (h : MPEmp.full order (.obj (.mat sp n n D)) metric test minNnz = .ok (.dense n E)) :
    (exact K).mpEmpiric (exact K) (.mat sp n n D) metric test = .ok ⟨n, fun i j => .fin (E i j)⟩ := by
  have hE := (MPEmp.full_dense_inv h).2
  have hc : MPEmp.fullChecks false metric test = .ok () := by
    unfold MPEmp.full at h
    simp only [dif_pos] at h
    cases hc : MPEmp.fullChecks false metric test with
    | error e => rw [hc] at h; cases h
    | ok u => rfl
  unfold mpEmpiric
  simp only [dif_pos, hc]
  change Except.ok _ = Except.ok _
  congr 2
  funext i j
  have hn0 : (n : K) ≠ 0 := by have := i.pos; exact_mod_cast this.ne'
  rw [hE, fullDense_count]
  refine (mpDense_apply metric D i.pos rfl i j).trans ?_
  unfold val simVal distVal ratio
  simp only [exact_up, exact_div, exact_sub, ofNat, exact_rnd, XR.div, if_neg hn0]
  split <;> simp [XR.sub, XR.neg, XR.add, sub_eq_add_neg]
end

section
variable {K : Type} [Field K] [LinearOrder K] [IsStrictOrderedRing K] [FloorRing K]

/-- **C182.** In IEEE arithmetic pairs are ordered exactly as by the probabilities which define Mutual Proximity, without any
ties or exchanges caused by rounding, as long as the number of objects has three binary digits less than the formats of
the computation `F` and of the matrix `G` (for float32 matrices up to two million objects). -/
theorem C182_order (F G : Ieee) {n : ℕ} (hs : Ieee.Small F G n) (D : Fin n → Fin n → XR K) (sp : Bool) (metric : String)
    (test : Option MPEmp.TestArg) (M : Fin n → Fin n → XR K)
    (h : (F.rounding K).mpEmpiric (G.rounding K) (.mat sp n n D) metric test = .ok ⟨n, M⟩)
    (hsym : Spec.Symmetric D) (i j a b : Fin n) :
    (metric = "distance" → (M i j < M a b ↔ Spec.mpDistance D i j < Spec.mpDistance D a b)) ∧
    (metric = "similarity" → D i j ≠ .pinf → D a b ≠ .pinf →
      (M i j < M a b ↔ Spec.mpSimilarity D i j < Spec.mpSimilarity D a b)) := by
  obtain ⟨rfl, hc⟩ := mpEmpiric_inv h
  have hn : n ≤ 2 ^ F.p := hs.left.le.trans (Nat.pow_le_pow_right (by norm_num) (by omega))
  have hnr : (F.rounding K).rnd (n : K) = .fin n := Ieee.round_natCast F hn hs.range
  have h0 : (0 : K) < n := by exact_mod_cast hs.pos
  rw [mpDense_apply metric D hs.pos hnr, mpDense_apply metric D hs.pos hnr,
    Ieee.val_lt_iff metric hs (mpCount_le metric D i j) (mpCount_le metric D a b)]
  have hfull : MPEmp.full (fun _ _ => []) (.obj (.mat sp n n D)) metric test 0
      = .ok (.dense n (MPEmp.fullDense metric D)) := by
    unfold MPEmp.full
    simp only [dif_pos, hc]
    rfl
  have h21 := fun i j => MPEmp.C21_computes_definition (fun _ _ => []) D sp metric test 0 _ hfull hsym i j
  constructor
  · intro hm
    rw [← (h21 i j).1 hm, ← (h21 a b).1 hm, fullDense_count, fullDense_count]
    subst hm
    rw [if_neg (by decide), if_neg (by decide), if_neg (by decide)]
    constructor
    · intro h
      have := div_lt_div_of_pos_right (Nat.cast_lt (α := K).2 h) h0
      linarith
    · intro h
      have h2 : (mpCount "distance" D a b : K) / n < (mpCount "distance" D i j : K) / n := by linarith
      exact_mod_cast (div_lt_div_iff_of_pos_right h0).1 h2
  · intro hm hi ha
    rw [← (h21 i j).2 hm hi, ← (h21 a b).2 hm ha, fullDense_count, fullDense_count]
    subst hm
    rw [if_pos rfl, if_pos rfl, if_pos rfl, div_lt_div_iff_of_pos_right h0, Nat.cast_lt]

/-- The points 0, 1 and 3 on a line, with float64 arithmetic and float32 result. -/
def line3q : Fin 3 → Fin 3 → XR ℚ := fun i j =>
  .fin (![![0, 1, 3], ![1, 0, 2], ![3, 2, 0]] i j)

/-- The distance of the outer points is one, that of the first two is the float32 nearest to two thirds. -/
example : (Ieee.double.rounding ℚ).mpDense (Ieee.single.rounding ℚ) "distance" line3q 0 2 = .fin 1 ∧
    (Ieee.double.rounding ℚ).mpDense (Ieee.single.rounding ℚ) "distance" line3q 0 1 = .fin (11184811 / 16777216) := by
  decide +kernel

example : ∃ M, (Ieee.double.rounding ℚ).mpEmpiric (Ieee.single.rounding ℚ) (.mat false 3 3 line3q) "distance" none =
    .ok ⟨3, M⟩ ∧ M 0 1 < M 0 2 ∧ (∀ i j, M i j = M j i) := by
  refine ⟨_, rfl, ?_, ?_⟩
  · exact ((C182_order .double .single ⟨by decide, by decide, by decide, by decide⟩ line3q false "distance" none _ rfl
      (by unfold Spec.Symmetric; decide +kernel) 0 1 0 2).1 rfl).2 (by decide +kernel)
  · exact (C182_valid line3q false "distance" none _ rfl (Ieee.round_natCast _ (by decide) (by decide))).1

/-- Float64 arithmetic and float32 matrices with two million objects are covered. -/
example : Ieee.Small .double .single 2000000 := ⟨by decide, by decide, by decide, by decide⟩

/-! ### Shared nearest neighbours -/

end

section
variable {K : Type} [Field K] [LinearOrder K] [IsStrictOrderedRing K] {R S : Rounding K}

omit [IsStrictOrderedRing K] in
theorem snnSerial_apply (R S : Rounding K) (metric : String) (k : ℤ) {n : ℕ} (knn : Fin n → Fin n → Bool) (i j : Fin n) :
    R.snnSerial S metric k knn i j =
      if i < j then S.up (R.snnEntry metric k (SNN.overlap (knn i) (knn j))) else .fin 0 := by
  unfold snnSerial
  rw [MPEmp.foldl_setRowFrom _ (fun i => i.val + 1)]
  by_cases h : i < j
  · simp [h, Nat.succ_le_iff.2 (Fin.lt_def.1 h)]
  · have : ¬ (i.val + 1 ≤ j.val) := fun h' => h (Fin.lt_def.2 h')
    simp [h, this]

omit [IsStrictOrderedRing K] in
theorem snnParallel_apply (R : Rounding K) (w : SNN.World K) (metric : String) (k : ℤ) {n : ℕ}
    (knn : Fin n → Fin n → Bool) (i j : Fin n) :
    R.snnParallel w metric k knn i j =
      if i < j then R.snnEntry metric k (SNN.overlap (knn i) (knn j)) else .fin 0 := by
  unfold snnParallel
  have hmem : ∀ x : (Fin n × Fin n) × XR K,
      x ∈ w.sched ((List.finRange n).flatMap (fun (i : Fin n) =>
        ((List.finRange n).filter (fun (j : Fin n) => decide (i < j))).map
          (fun j => ((i, j), R.snnEntry metric k (SNN.overlap (knn i) (knn j)))))) ↔
        ∃ i j, i < j ∧ x = ((i, j), R.snnEntry metric k (SNN.overlap (knn i) (knn j))) := by
    intro x
    rw [(w.sched_perm _).mem_iff, List.mem_flatMap]
    constructor
    · rintro ⟨i, _, h⟩
      obtain ⟨j, hj, rfl⟩ := List.mem_map.1 h
      exact ⟨i, j, by simpa using hj, rfl⟩
    · rintro ⟨i, j, hij, rfl⟩
      exact ⟨i, List.mem_finRange i, List.mem_map.2 ⟨j, by simpa using hij, rfl⟩⟩
  by_cases h : i < j
  · rw [if_pos h]
    refine Sched.exec_of_consistent _ _ _ _ ((hmem _).2 ⟨i, j, h, rfl⟩) ?_
    intro x hx hxa
    obtain ⟨i', j', _, rfl⟩ := (hmem x).1 hx
    obtain ⟨rfl, rfl⟩ := Prod.mk.inj hxa
    rfl
  · rw [if_neg h, Sched.exec_of_notMem]
    intro hx
    obtain ⟨x, hx, hxe⟩ := List.mem_map.1 hx
    obtain ⟨i', j', hij, rfl⟩ := (hmem x).1 hx
    obtain ⟨rfl, rfl⟩ := Prod.mk.inj hxe
    exact h hij

/-- The arithmetic of the result array. -/
def store (R S : Rounding K) (w : SNN.World K) (nJobs : ℤ) : Rounding K := if SNN.jobs w nJobs > 1 then R else S

omit [IsStrictOrderedRing K] in
theorem snnEntry_up (R S : Rounding K) (w : SNN.World K) (nJobs : ℤ) (metric : String) (k : ℤ) (c : ℕ) :
    (if SNN.jobs w nJobs > 1 then R.snnEntry metric k c else S.up (R.snnEntry metric k c)) =
      (store R S w nJobs).up (R.snnEntry metric k c) := by
  unfold store
  split_ifs
  · unfold snnEntry
    simp only
    split_ifs
    · exact (float_up _).symm
    · exact (float_up _).symm
  · rfl

theorem snnEntry_val (P : Rounding K) (metric : String) (hm : metric = "distance" ∨ metric = "similarity") (k c : ℕ) :
    P.up (R.snnEntry metric (k : ℤ) c) = R.val P metric c k := by
  unfold snnEntry val simVal distVal ratio ofNat
  rcases hm with rfl | rfl
  · simp
  · simp

/-- Value of the whole matrix in terms of the selected columns. -/
theorem snnCore_eq (R S : Rounding K) (w : SNN.World K) {n : ℕ} (D : Fin n → Fin n → XR K) (k : ℕ) (metric : String)
    (hm : metric = "distance" ∨ metric = "similarity") (nJobs : ℤ) (sel : Fin n → List (Fin n))
    (h : ∀ i, SNN.hood w.part metric (SNN.kthOf metric n k) k (Np.fillDiagonal D (SNN.exclude metric) i) = .ok (sel i)) :
    R.snnCore S w D k metric nJobs = .ok (fun i j => if i = j then SNN.selfValue metric else
      R.val (store R S w nJobs) metric ((sel i).toFinset ∩ (sel j).toFinset).card k) := by
  unfold snnCore
  simp only [h]
  rw [Np.tabulateM_ok]
  refine Eq.trans (b := Except.ok _) rfl ?_
  congr 1
  funext i j
  unfold Np.fillDiagonal
  by_cases hij : i = j
  · simp [hij]
  have hij' : i.val ≠ j.val := fun h => hij (Fin.ext h)
  rw [if_neg hij', if_neg hij]
  have key : ∀ (P : Rounding K) (M : Fin n → Fin n → XR K) (f : ℕ → XR K),
      (∀ a b, M a b = if a < b then P.up (f ((sel a).toFinset ∩ (sel b).toFinset).card) else .fin 0) →
      P.add (M i j) (M j i) = P.up (f ((sel i).toFinset ∩ (sel j).toFinset).card) := by
    intro P M f hM
    rcases lt_or_gt_of_ne hij with hlt | hlt
    · rw [hM i j, hM j i, if_pos hlt, if_neg hlt.not_gt, add_zero_up]
    · rw [hM i j, hM j i, if_pos hlt, if_neg hlt.not_gt, zero_add_up, Finset.inter_comm]
  rw [← snnEntry_val _ metric hm]
  unfold store
  split_ifs
  · refine key R _ (R.snnEntry metric k) (fun a b => ?_)
    simp only
    rw [snnParallel_apply, SNN.markParallel_eq, SNN.overlap_mark]
    congr 1
    unfold snnEntry
    simp only
    split_ifs
    · exact (float_up _).symm
    · exact (float_up _).symm
  · refine key S _ (R.snnEntry metric k) (fun a b => ?_)
    simp only
    rw [snnSerial_apply, SNN.overlap_mark]

theorem snn_call (R S : Rounding K) (w : SNN.World K) {n : ℕ} (D : Fin n → Fin n → XR K) (k : ℕ) (h1 : 1 ≤ k) (hk : k < n)
    (metric : String) (hm : metric = "distance" ∨ metric = "similarity") (nJobs : ℤ) (x : Fin n → Fin n → K)
    (hD : ∀ i j, i ≠ j → D i j = .fin (x i j)) :
    ∃ N : Fin n → Finset (Fin n),
      (∀ i, Spec.IsHood (Spec.nearer metric) (Finset.univ.erase i) (x i) k (N i)) ∧
      SNN.sharedNearestNeighbors w (.mat false n n D) k metric nJobs =
        .ok ⟨n, fun i j => .fin (if i = j then Spec.snnSelf metric else Spec.snn metric (N i) (N j) k)⟩ ∧
      R.sharedNearestNeighbors S w (.mat false n n D) k metric nJobs =
        .ok ⟨n, fun i j => if i = j then SNN.selfValue metric else
          R.val (store R S w nJobs) metric (N i ∩ N j).card k⟩ := by
  choose L hL hsel using fun i => SNN.hood_sel w.part metric hm k h1 hk (Np.fillDiagonal D (SNN.exclude metric) i)
  refine ⟨fun i => (L i).toFinset, fun i => ?_, ?_, ?_⟩
  · refine (hsel i).isHood hm _ _ ?_ ?_ ?_
    · intro j hj
      have hij : j ≠ i := (Finset.mem_erase.1 hj).1
      unfold Np.fillDiagonal
      rw [if_neg (fun h : i.val = j.val => hij (Fin.ext h).symm), hD i j hij.symm]
    · intro j hj
      have hij : j = i := by by_contra h; exact hj (Finset.mem_erase.2 ⟨h, Finset.mem_univ _⟩)
      unfold Np.fillDiagonal
      rw [if_pos (by rw [hij])]
    · rw [Finset.card_erase_of_mem (Finset.mem_univ i), Finset.card_univ, Fintype.card_fin]; omega
  · rw [SNN.call_of_sel w D k metric hm nJobs L hL]
    congr 2
    funext i j
    unfold SNN.result
    rw [SNN.entry_fin metric hm k h1, SNN.selfValue_eq]
    split <;> rfl
  · have hc : checkValidMetric metric = .ok () := by rcases hm with rfl | rfl <;> rfl
    unfold sharedNearestNeighbors
    simp only [PyMat.checkSquare, dif_pos rfl]
    change ((checkValidMetric metric).bind fun _ => _) = _
    rw [hc]
    change ((R.snnCore S w D k metric nJobs).bind fun M => _) = _
    rw [snnCore_eq R S w D k metric hm nJobs L hL]
    rfl

/-- **C183.** In floating point arithmetic, too, shared nearest neighbours yields exactly symmetric values in the unit interval
with the right self values, for every number of processes and any storage format. -/
theorem C183_valid (R S : Rounding K) (w : SNN.World K) {n : ℕ} (D : Fin n → Fin n → XR K) (k : ℕ) (h1 : 1 ≤ k) (hk : k < n)
    (metric : String) (hm : metric = "distance" ∨ metric = "similarity") (nJobs : ℤ) (x : Fin n → Fin n → K)
    (hD : ∀ i j, i ≠ j → D i j = .fin (x i j)) (hr : R.rnd (k : K) = .fin k) :
    ∃ M : Fin n → Fin n → XR K, R.sharedNearestNeighbors S w (.mat false n n D) k metric nJobs = .ok ⟨n, M⟩ ∧
      (∀ i j, M i j = M j i) ∧ (∀ i j, ∃ x, M i j = .fin x ∧ 0 ≤ x ∧ x ≤ 1) ∧
      ∀ i, M i i = .fin (if metric = "similarity" then 1 else 0) := by
  obtain ⟨N, hN, -, h⟩ := snn_call R S w D k h1 hk metric hm nJobs x hD
  refine ⟨_, h, fun i j => ?_, fun i j => ?_, fun i => ?_⟩
  · by_cases hij : i = j
    · simp [hij]
    · rw [if_neg hij, if_neg (Ne.symm hij), Finset.inter_comm]
  · by_cases hij : i = j
    · rw [if_pos hij]
      unfold SNN.selfValue
      split
      · exact ⟨1, rfl, zero_le_one, le_rfl⟩
      · exact ⟨0, rfl, le_rfl, zero_le_one⟩
    · rw [if_neg hij]
      refine val_unit metric ?_ h1 hr
      rw [← (hN i).card]; exact Finset.card_le_card Finset.inter_subset_left
  · rw [if_pos rfl]
    unfold SNN.selfValue
    split <;> rfl
end

section
variable {K : Type} [Field K] [LinearOrder K] [IsStrictOrderedRing K] [FloorRing K]

/-- **C183.** In IEEE arithmetic pairs are ordered exactly as by the fraction of common neighbours, without any ties or
exchanges caused by rounding, for neighbourhood sizes with three binary digits less than the formats. -/
theorem C183_order (F G : Ieee) (w : SNN.World K) {n : ℕ} (D : Fin n → Fin n → XR K) (k : ℕ) (hk : k < n)
    (hF : Ieee.Small F F k) (hG : Ieee.Small F G k) (metric : String) (hm : metric = "distance" ∨ metric = "similarity")
    (nJobs : ℤ) (x : Fin n → Fin n → K) (hD : ∀ i j, i ≠ j → D i j = .fin (x i j)) :
    ∃ (N : Fin n → Finset (Fin n)) (M : Fin n → Fin n → XR K),
      (∀ i, Spec.IsHood (Spec.nearer metric) (Finset.univ.erase i) (x i) k (N i)) ∧
      (F.rounding K).sharedNearestNeighbors (G.rounding K) w (.mat false n n D) k metric nJobs = .ok ⟨n, M⟩ ∧
      ∀ i j a b, M i j < M a b ↔
        ((if i = j then Spec.snnSelf metric else Spec.snn metric (N i) (N j) k) : K) <
          (if a = b then Spec.snnSelf metric else Spec.snn metric (N a) (N b) k) := by
  have h1 : 1 ≤ k := hF.pos
  have hk0 : (0 : K) < k := by exact_mod_cast hF.pos
  have hkp : k ≤ 2 ^ F.p := hF.left.le.trans (Nat.pow_le_pow_right (by norm_num) (by omega))
  have hkr : (F.rounding K).rnd (k : K) = .fin k := Ieee.round_natCast F hkp hF.range
  obtain ⟨N, hN, -, h⟩ := snn_call (F.rounding K) (G.rounding K) w D k h1 hk metric hm nJobs x hD
  refine ⟨N, _, hN, h, ?_⟩
  -- the count of a pair
  let cnt : Fin n → Fin n → ℕ := fun i j => if i = j then k else (N i ∩ N j).card
  have hcnt : ∀ i j, cnt i j ≤ k := by
    intro i j
    simp only [cnt]
    split
    · exact le_rfl
    · rw [← (hN i).card]; exact Finset.card_le_card Finset.inter_subset_left
  have hself : (SNN.selfValue metric : XR K) = .fin (MPEmp.selfValue metric) := by
    unfold SNN.selfValue MPEmp.selfValue; split <;> rfl
  have hval : ∀ (P : Rounding K) i j, (if i = j then SNN.selfValue metric else
      (F.rounding K).val P metric (N i ∩ N j).card k) = (F.rounding K).val P metric (cnt i j) k := by
    intro P i j
    simp only [cnt]
    split
    · rw [val_self metric hF.pos hkr, hself]
    · rfl
  have hspec : ∀ i j, ((if i = j then Spec.snnSelf metric else Spec.snn metric (N i) (N j) k) : K) =
      if metric = "similarity" then (cnt i j : K) / k else 1 - (cnt i j : K) / k := by
    intro i j
    simp only [cnt]
    unfold Spec.snnSelf Spec.snn Spec.commonFraction
    by_cases hij : i = j
    · simp only [if_pos hij, div_self hk0.ne']; split <;> simp
    · simp only [if_neg hij]
  intro i j a b
  rw [hval, hval, hspec, hspec]
  have hP : (F.rounding K).val (store (F.rounding K) (G.rounding K) w nJobs) metric (cnt i j) k <
      (F.rounding K).val (store (F.rounding K) (G.rounding K) w nJobs) metric (cnt a b) k ↔
      if metric = "similarity" then cnt i j < cnt a b else cnt a b < cnt i j := by
    unfold store
    split
    · exact Ieee.val_lt_iff metric hF (hcnt i j) (hcnt a b)
    · exact Ieee.val_lt_iff metric hG (hcnt i j) (hcnt a b)
  rw [hP]
  split
  · rw [div_lt_div_iff_of_pos_right hk0, Nat.cast_lt]
  · constructor
    · intro h
      have := div_lt_div_of_pos_right (Nat.cast_lt (α := K).2 h) hk0
      linarith
    · intro h
      have h2 : (cnt a b : K) / k < (cnt i j : K) / k := by linarith
      exact_mod_cast (div_lt_div_iff_of_pos_right hk0).1 h2

end

/-- One neighbour each: the two left points share no neighbour, so their distance is one. -/
example : (Ieee.double.rounding ℚ).sharedNearestNeighbors (Ieee.single.rounding ℚ) (SNN.revWorld ℚ) (.mat false 3 3 line3q) 1
    "distance" (-1) = .ok ⟨3, fun i j => .fin (![![0, 1, 0], ![1, 0, 1], ![0, 1, 0]] i j)⟩ := by
  refine Eq.trans (b := .ok ⟨3, _⟩) rfl ?_
  congr 2
  funext i j
  revert i j
  decide +kernel


end HubToolbox.Rounding
