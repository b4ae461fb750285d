import Verif.Knn.RPrecisionProps

/-!
# The dictionary returned by `r_precision`, with encoded labels

The model in `Verif.Knn.RPrecision` keeps the labels; here the label encoder of the code is modelled as well, with all
entries of the returned dictionary. C206: which labels the dictionary contains.
-/

set_option autoImplicit false

namespace HubToolbox.Knn

variable {K : Type}

/-- `np.array([np.nan]).astype(int)`: the smallest integer. -/
def intMin : ℤ := -2 ^ 63

/-- `le.classes_` after `le.fit(np.append(y, incorr_orig))` (`/repo/hub_toolbox/knn_classification.py` lines 588-591). -/
def leClasses {n : ℕ} (y : Fin n → ℤ) : List ℤ := labelsOf (List.ofFn y ++ [intMin])

/-- `relevant_items = np.bincount(y) - 1` of encoded labels (`/repo/hub_toolbox/knn_classification.py` line 595). -/
def relevantItems {n : ℕ} (ye : Fin n → ℕ) : List ℤ := (Np.bincount (List.ofFn ye) 0).map (fun c : ℕ => (c : ℤ) - 1)

/-- `_r_prec_worker` (`/repo/hub_toolbox/knn_classification.py` lines 468-525) on encoded labels `ye`; `incorrect` is the
code of the label for misclassifications. -/
def rWorkerEnc [Field K] [LinearOrder K] (o : ArgPart (XR K)) (rnd : Rnd) {n : ℕ} (S : Fin n → Fin n → XR K)
    (ye : Fin n → ℕ) (incorrect w : ℕ) (i : Fin n) : K × (Fin w → ℕ) :=
  let R : ℤ := (relevantItems ye).getD (ye i) 0
  if R = 0 then (0, fun _ => incorrect)
  else
    let yPredicted := (rNeighbours o rnd S R.toNat i).map ye
    let correct := yPredicted.countP (fun v => decide (v = ye i))
    if correct = 0 then (0, fun _ => incorrect)
    else ((correct : K) / (R : K), fun a => ((yPredicted.take w)[a.val]?).getD incorrect)

/-- The returned dictionary (`/repo/hub_toolbox/knn_classification.py` lines 638-643). -/
structure RDict (K : Type) (n w : ℕ) where
  macroAvg : XR K
  weighted : K
  perItem : Fin n → K
  relevantItems : List ℤ
  yTrue : Fin n → ℕ
  yPred : Fin n → Fin w → ℤ

/-- `r_precision` (`/repo/hub_toolbox/knn_classification.py` lines 528-644). -/
def rPrecisionDict [Field K] [LinearOrder K] (o : ArgPart (XR K)) (rnd : Rnd) (S : PyMat (XR K)) (target : PyVec ℤ)
    (metric : String) (w : ℕ) : Py (Σ n, RDict K n w) := do
  let (sp, ⟨n, a, y⟩) ← checkMatrixLabels S target
  checkValidMetric metric
  if metric ≠ "similarity" ∨ sp = false then throw .notImplementedError
  let ye : Fin n → ℕ := fun i => encode (leClasses y) (y i)
  let incorrect := encode (leClasses y) intMin
  let r := rWorkerEnc o rnd a ye incorrect w
  let weight : Fin n → ℤ := fun i => (relevantItems ye).getD (ye i) 0
  let wsum := ((List.finRange n).map weight).sum
  if wsum = 0 then throw .zeroDivisionError
  pure ⟨n,
    { macroAvg := if n = 0 then .nan else .fin (((List.finRange n).map (fun i => (r i).1)).sum / (n : K))
      weighted := ((List.finRange n).map (fun i => (r i).1 * (weight i : K))).sum / (wsum : K)
      perItem := fun i => (r i).1
      relevantItems := relevantItems ye
      yTrue := ye
      yPred := fun i a => (leClasses y).getD ((r i).2 a) 0 }⟩

variable {n : ℕ}

theorem mem_le (y : Fin n → ℤ) (i : Fin n) : y i ∈ List.ofFn y ++ [intMin] :=
  List.mem_append_left _ (List.mem_ofFn.2 ⟨i, rfl⟩)

theorem mem_le_min (y : Fin n → ℤ) : intMin ∈ List.ofFn y ++ [intMin] := by simp

/-- Codes and labels agree. -/
theorem enc_eq_iff (y : Fin n → ℤ) (i j : Fin n) :
    encode (leClasses y) (y i) = encode (leClasses y) (y j) ↔ y i = y j :=
  ⟨fun h => encode_inj (mem_le y i) (mem_le y j) h, fun h => by rw [h]⟩

theorem relevantItems_getD (y : Fin n → ℤ) (i : Fin n) :
    (relevantItems (fun i => encode (leClasses y) (y i))).getD (encode (leClasses y) (y i)) 0 = (relevant y i : ℤ) := by
  have hc : (List.ofFn (fun i => encode (leClasses y) (y i))).count (encode (leClasses y) (y i)) =
      (List.finRange n).countP (fun j => decide (y j = y i)) := by
    rw [List.ofFn_eq_map, List.count, List.countP_map]
    apply List.countP_congr
    intro j _
    simp [enc_eq_iff]
  have hpos : 0 < (List.finRange n).countP (fun j => decide (y j = y i)) :=
    List.countP_pos_iff.2 ⟨i, List.mem_finRange i, by simp⟩
  have hb := bincount_getD (List.ofFn (fun i => encode (leClasses y) (y i))) (encode (leClasses y) (y i))
  rw [hc] at hb
  have hlen : encode (leClasses y) (y i) < (Np.bincount (List.ofFn (fun i => encode (leClasses y) (y i))) 0).length := by
    by_contra hn
    rw [List.getD_eq_default _ _ (by omega)] at hb
    omega
  rw [List.getD_eq_getElem _ _ hlen] at hb
  unfold relevantItems
  rw [List.getD_eq_getElem _ _ (by rw [List.length_map]; exact hlen), List.getElem_map, hb, relevant]
  omega

/-- The worker on codes computes what the worker on labels does. -/
theorem rWorkerEnc_eq [Field K] [LinearOrder K] (o : ArgPart (XR K)) (rnd : Rnd) (S : Fin n → Fin n → XR K)
    (y : Fin n → ℤ) (w : ℕ) (i : Fin n) :
    (rWorkerEnc o rnd S (fun i => encode (leClasses y) (y i)) (encode (leClasses y) intMin) w i).1 =
      (rWorker o rnd S y w i).prec ∧
    ∀ a, (leClasses y).getD
      ((rWorkerEnc o rnd S (fun i => encode (leClasses y) (y i)) (encode (leClasses y) intMin) w i).2 a) 0 =
      ((rWorker o rnd S y w i).nn a).getD intMin := by
  have hmin : (leClasses y).getD (encode (leClasses y) intMin) 0 = intMin := labels_getD (mem_le_min y)
  unfold rWorkerEnc rWorker
  simp only [relevantItems_getD, Int.toNat_natCast, Nat.cast_eq_zero]
  by_cases hR : relevant y i = 0
  · rw [if_pos hR, if_pos hR]
    exact ⟨rfl, fun a => by simpa using hmin⟩
  · rw [if_neg hR, if_neg hR]
    have hcnt : ((rNeighbours o rnd S (relevant y i) i).map (fun i => encode (leClasses y) (y i))).countP
        (fun v => decide (v = encode (leClasses y) (y i))) =
        ((rNeighbours o rnd S (relevant y i) i).map y).countP (fun v => decide (v = y i)) := by
      rw [List.countP_map, List.countP_map]
      apply List.countP_congr
      intro j _
      simp [enc_eq_iff]
    rw [hcnt]
    by_cases hc : ((rNeighbours o rnd S (relevant y i) i).map y).countP (fun v => decide (v = y i)) = 0
    · rw [if_pos hc, if_pos hc]
      exact ⟨rfl, fun a => by simpa using hmin⟩
    · rw [if_neg hc, if_neg hc]
      refine ⟨by simp, fun a => ?_⟩
      simp only [← List.map_take, List.getElem?_map]
      cases ((rNeighbours o rnd S (relevant y i) i).take w)[a.val]? with
      | none => simpa using hmin
      | some j => exact labels_getD (mem_le y j)

/-- **C206** (the numbers): with the label encoder, `r_precision` returns the numbers and predicted labels of the model
without it, and fails in the same cases; `relevant_items[y_true]` are the numbers of relevant items. -/
theorem C206_dict_partial [Field K] [LinearOrder K] [IsStrictOrderedRing K] (o : ArgPart (XR K)) (rnd : Rnd) (S : Fin n → Fin n → XR K)
    (y : Fin n → ℤ) (w : ℕ) (r : RRes K n w)
    (h : rPrecision o rnd (.mat true n n S) (.vec n y) "similarity" w = .ok ⟨n, r⟩) :
    ∃ d : RDict K n w, rPrecisionDict o rnd (.mat true n n S) (.vec n y) "similarity" w = .ok ⟨n, d⟩ ∧
      d.macroAvg = r.macroAvg ∧ d.weighted = r.weighted ∧ d.perItem = r.perItem ∧
      (∀ i a, d.yPred i a = (r.yPred i a).getD intMin) ∧
      (∀ i, d.relevantItems.getD (d.yTrue i) 0 = (r.relevantItems i : ℤ)) ∧
      (∀ i j, d.yTrue i < d.yTrue j ↔ y i < y j) := by
  rw [rPrecision_eq] at h
  split at h
  · cases h
  rename_i hw
  cases h
  have h1 : checkMatrixLabels (.mat true n n S) (.vec n y) = .ok (true, ⟨n, S, y⟩) := by
    simp [checkMatrixLabels]
  have h2 : checkValidMetric "similarity" = .ok () := rfl
  have hsum : ((List.finRange n).map (fun i =>
      (relevantItems (fun i => encode (leClasses y) (y i))).getD (encode (leClasses y) (y i)) 0)).sum =
      (((List.finRange n).map (relevant y)).sum : ℕ) := by
    simp only [relevantItems_getD]
    rw [← List.ofFn_eq_map, ← List.ofFn_eq_map, List.sum_ofFn, List.sum_ofFn]
    push_cast
    rfl
  have hne : ¬ ((List.finRange n).map (fun i =>
      (relevantItems (fun i => encode (leClasses y) (y i))).getD (encode (leClasses y) (y i)) 0)).sum = 0 := by
    rw [hsum]
    exact_mod_cast hw
  unfold rPrecisionDict
  rw [h1, h2]
  refine ⟨_, if_neg hne, ?_, ?_, ?_, ?_, ?_, ?_⟩
  · simp only [(rWorkerEnc_eq o rnd S y w _).1]
  · simp only [(rWorkerEnc_eq o rnd S y w _).1, hsum]
    simp only [relevantItems_getD, Int.cast_natCast]
  · simp only [(rWorkerEnc_eq o rnd S y w _).1]
  · intro i a
    exact (rWorkerEnc_eq o rnd S y w i).2 a
  · intro i
    exact relevantItems_getD y i
  · intro i j
    change encode (leClasses y) (y i) < encode (leClasses y) (y j) ↔ y i < y j
    rw [leClasses, encode_eq_rank _ _ (mem_le y i), encode_eq_rank _ _ (mem_le y j)]
    constructor
    · intro hlt
      by_contra hle
      refine absurd (Finset.card_le_card (s := (List.ofFn y ++ [intMin]).toFinset.filter (· < y j)) ?_) (not_le.2 hlt)
      intro v hv
      rw [Finset.mem_filter] at hv ⊢
      exact ⟨hv.1, lt_of_lt_of_le hv.2 (not_lt.1 hle)⟩
    · intro hlt
      apply Finset.card_lt_card
      rw [Finset.ssubset_iff_of_subset]
      · exact ⟨y i, by simp [hlt], by simp⟩
      · intro v hv
        rw [Finset.mem_filter] at hv ⊢
        exact ⟨hv.1, hv.2.trans hlt⟩

/-- **C206 does not hold**: the labels returned as `y_true` are never the given ones, unless the labels are the numbers from 1
to the number of classes: the entry of the first (smallest) label is always one. -/
theorem C206_violated [Field K] [LinearOrder K] (o : ArgPart (XR K)) (rnd : Rnd) (S : Fin n → Fin n → XR K)
    (y : Fin n → ℤ) (hy : ∀ i, intMin < y i) (w : ℕ) (d : RDict K n w)
    (h : rPrecisionDict o rnd (.mat true n n S) (.vec n y) "similarity" w = .ok ⟨n, d⟩) :
    (∀ i, d.yTrue i = 1 + (((List.ofFn y).toFinset).filter (· < y i)).card) ∧
    (∀ i, (∀ j, y i ≤ y j) → y i ≠ 1 → (d.yTrue i : ℤ) ≠ y i) ∧
    d.relevantItems.head? = some (-1) := by
  have h1 : checkMatrixLabels (.mat true n n S) (.vec n y) = .ok (true, ⟨n, S, y⟩) := by
    simp [checkMatrixLabels]
  have h2 : checkValidMetric "similarity" = .ok () := rfl
  unfold rPrecisionDict at h
  rw [h1, h2] at h
  have hd : ¬ ((List.finRange n).map (fun i =>
      (relevantItems (fun i => encode (leClasses y) (y i))).getD (encode (leClasses y) (y i)) 0)).sum = 0 ∧
      d.yTrue = (fun i => encode (leClasses y) (y i)) ∧ d.relevantItems = relevantItems (fun i => encode (leClasses y) (y i)) := by
    by_cases hw : ((List.finRange n).map (fun i =>
      (relevantItems (fun i => encode (leClasses y) (y i))).getD (encode (leClasses y) (y i)) 0)).sum = 0
    · exact absurd ((if_pos hw).symm.trans h) (by intro hh; cases hh)
    · have := (if_neg hw).symm.trans h
      cases this
      exact ⟨hw, rfl, rfl⟩
  have hrank : ∀ i, d.yTrue i = 1 + (((List.ofFn y).toFinset).filter (· < y i)).card := by
    intro i
    rw [hd.2.1]
    change encode (leClasses y) (y i) = _
    rw [leClasses, encode_eq_rank _ _ (mem_le y i)]
    have : (List.ofFn y ++ [intMin]).toFinset.filter (· < y i) =
        insert intMin ((List.ofFn y).toFinset.filter (· < y i)) := by
      ext v
      simp only [Finset.mem_filter, List.mem_toFinset, List.mem_append, List.mem_singleton, Finset.mem_insert]
      constructor
      · rintro ⟨h | h, h'⟩
        · exact Or.inr ⟨h, h'⟩
        · exact Or.inl h
      · rintro (h | h)
        · exact ⟨Or.inr h, h ▸ hy i⟩
        · exact ⟨Or.inl h.1, h.2⟩
    rw [this, Finset.card_insert_of_notMem, add_comm]
    intro hm
    rw [Finset.mem_filter, List.mem_toFinset, List.mem_ofFn] at hm
    obtain ⟨⟨j, hj⟩, -⟩ := hm
    exact absurd hj (hy j).ne'
  refine ⟨hrank, ?_, ?_⟩
  · intro i hmin h1 he
    rw [hrank i] at he
    have : ((List.ofFn y).toFinset.filter (· < y i)).card = 0 := by
      rw [Finset.card_eq_zero, Finset.filter_eq_empty_iff]
      intro v hv
      obtain ⟨j, rfl⟩ := List.mem_ofFn.1 (List.mem_toFinset.1 hv)
      exact not_lt.2 (hmin j)
    rw [this] at he
    exact h1 (by simpa using he.symm)
  · rw [hd.2.2]
    -- there is an object, and its code is positive
    have hn : 0 < n := by
      rcases Nat.eq_zero_or_pos n with h0 | h0
      · exfalso
        apply hd.1
        subst h0
        simp
      · exact h0
    have hb := bincount_getD (List.ofFn (fun i => encode (leClasses y) (y i))) 0
    have h0 : (List.ofFn (fun i => encode (leClasses y) (y i))).count 0 = 0 := by
      rw [List.count_eq_zero]
      intro hm
      obtain ⟨j, hj⟩ := List.mem_ofFn.1 hm
      have := hrank j
      rw [hd.2.1] at this
      beta_reduce at this hj
      omega
    have hlen : 0 < (Np.bincount (List.ofFn (fun i => encode (leClasses y) (y i))) 0).length := by
      by_contra hne
      have hr := bincount_getD (List.ofFn (fun i => encode (leClasses y) (y i))) (encode (leClasses y) (y ⟨0, hn⟩))
      rw [List.getD_eq_default _ _ (by omega)] at hr
      have : 0 < (List.ofFn (fun i => encode (leClasses y) (y i))).count (encode (leClasses y) (y ⟨0, hn⟩)) :=
        List.count_pos_iff.2 (List.mem_ofFn.2 ⟨⟨0, hn⟩, rfl⟩)
      omega
    rw [h0, List.getD_eq_getElem _ _ hlen] at hb
    unfold relevantItems
    rw [List.head?_map, List.head?_eq_getElem?, List.getElem?_eq_getElem hlen, hb]
    rfl

/-- Three objects of classes 0, 0 and 1: the returned true labels are 1, 1 and 2. -/
def exDictY : Fin 3 → ℤ := ![0, 0, 1]

def yTrueOf {w : ℕ} (x : Py (Σ n, RDict K n w)) : List ℕ × List ℤ :=
  match x with
  | .ok ⟨_, d⟩ => (List.ofFn d.yTrue, d.relevantItems)
  | .error _ => ([], [])

example : yTrueOf (rPrecisionDict (ArgPart.ofInsertion _) Rnd.id (.mat true 3 3 exRS) (.vec 3 exDictY) "similarity" 1)
    = ([1, 1, 2], [-1, 1, 0]) := by decide +kernel

example : ∀ i, intMin < exDictY i := by decide

end HubToolbox.Knn
