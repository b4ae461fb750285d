import Verif.Knn.SparseLemmas

/-!
# Properties of k-NN classification
-/

set_option autoImplicit false
set_option linter.unusedSectionVars false

namespace HubToolbox.Knn
open Spec

variable {K : Type} [Field K] [LinearOrder K] {n : ℕ}

/-! ## Successful calls -/

theorem toFins_map (T : List (Fin n)) : toFins n (T.map Fin.val) = .ok T := by
  unfold toFins
  induction T with
  | nil => rfl
  | cons a T ih =>
    rw [List.map_cons, List.mapM_cons, ih]
    simp
    rfl

theorem score_dense_loo (srt : ArgSort (XR K)) (o : ArgPart (XR K)) (rnd : Rnd) (D : Fin n → Fin n → XR K)
    (y : Fin n → ℤ) (ks : List ℤ) (metric : String) (hm : metric = "distance" ∨ metric = "similarity") :
    score srt o rnd (.mat false n n D) (.vec n y) (.list ks) metric none
      = .ok ⟨n, runDense srt rnd metric ks (labelsOf (List.ofFn y)).length (List.finRange n)
          (fun i => Function.update (D i) i (dSelf metric)) (List.finRange n)
          (fun i => encode (labelsOf (List.ofFn y)) (y i)) (fun i => encode (labelsOf (List.ofFn y)) (y i))⟩ := by
  rcases hm with rfl | rfl <;> simp [score, checkMatrixLabels, checkValidMetric, KArg.toList, scoreDense] <;> rfl

theorem score_dense_test (srt : ArgSort (XR K)) (o : ArgPart (XR K)) (rnd : Rnd) (D : Fin n → Fin n → XR K)
    (y : Fin n → ℤ) (ks : List ℤ) (metric : String) (hm : metric = "distance" ∨ metric = "similarity")
    (T : List (Fin n)) (tr : List (Fin n)) (htr : toFins n (trainSet T) = .ok tr) :
    score srt o rnd (.mat false n n D) (.vec n y) (.list ks) metric (some (T.map Fin.val))
      = .ok ⟨n, runDense srt rnd metric ks (labelsOf (List.ofFn y)).length T
          (fun i => Function.update (D i) i (dSelf metric)) tr
          (fun i => encode (labelsOf (List.ofFn y)) (y i)) (fun i => encode (labelsOf (List.ofFn y)) (y i))⟩ := by
  have h1 : scoreDense srt rnd metric ks D y (some T) = .ok (runDense srt rnd metric ks (labelsOf (List.ofFn y)).length T
          (fun i => Function.update (D i) i (dSelf metric)) tr
          (fun i => encode (labelsOf (List.ofFn y)) (y i)) (fun i => encode (labelsOf (List.ofFn y)) (y i))) := by
    cases T with
    | nil =>
      have h0 : tr = [] := (Except.ok.inj (show (Except.ok [] : Py (List (Fin n))) = .ok tr from htr)).symm
      rw [h0]
      rfl
    | cons a T =>
      unfold scoreDense
      simp only [List.isEmpty_cons]
      rw [htr]
      rfl
  have h2 := toFins_map T
  have key : score srt o rnd (.mat false n n D) (.vec n y) (.list ks) metric (some (T.map Fin.val))
      = (toFins n (T.map Fin.val) >>= fun T' => scoreDense srt rnd metric ks D y (some T') >>= fun r =>
        (.ok ⟨n, r⟩ : Py (Σ n, Res K n))) := by
    rcases hm with rfl | rfl <;> simp [score, checkMatrixLabels, checkValidMetric, KArg.toList] <;> rfl
  rw [key, h2]
  simp only [bind, Except.bind]
  rw [h1]

theorem score_sparse_ok (hn : 0 < n) (srt : ArgSort (XR K)) (o : ArgPart (XR K)) (rnd : Rnd)
    (D : Fin n → Fin n → XR K) (y : Fin n → ℤ) (ks : List ℤ) (metric : String)
    (hm : metric = "distance" ∨ metric = "similarity") (test : Option (List (Fin n))) :
    score srt o rnd (.mat true n n D) (.vec n y) (.list ks) metric (test.map (fun T => T.map Fin.val))
      = .ok ⟨n, { nClasses := (labelsOf (List.ofFn y)).length + 2
                  perK := (List.range ks.length).map (fun j =>
                    tally (test.getD (List.finRange n)).length (test.getD (List.finRange n))
                      (fun i => encode (labelsOf (List.ofFn y)) (y i)) (fun i =>
                      vote (labelsOf (List.ofFn y)).length
                        (((nnLists (D i) (rnd.again i.val) ks 0
                          (sparseOrder o (D i) ks (rnd.first i.val (storedCols (D i))))).getD j []).map
                            (fun i => encode (labelsOf (List.ofFn y)) (y i))))) }⟩ := by
  cases test with
  | none =>
    have key : score srt o rnd (.mat true n n D) (.vec n y) (.list ks) metric none
        = (scoreSparse o rnd ks D y (List.finRange n) >>= fun r => (.ok ⟨n, r⟩ : Py (Σ n, Res K n))) := by
      rcases hm with rfl | rfl <;> simp [score, checkMatrixLabels, checkValidMetric, KArg.toList] <;> rfl
    rw [Option.map_none, key]
    simp only [scoreSparse, hn.ne', if_false]
    rfl
  | some T =>
    have h2 := toFins_map T
    have key : score srt o rnd (.mat true n n D) (.vec n y) (.list ks) metric (some (T.map Fin.val))
        = (toFins n (T.map Fin.val) >>= fun T' => scoreSparse o rnd ks D y T' >>= fun r =>
          (.ok ⟨n, r⟩ : Py (Σ n, Res K n))) := by
      rcases hm with rfl | rfl <;> simp [score, checkMatrixLabels, checkValidMetric, KArg.toList] <;> rfl
    rw [Option.map_some, key, h2]
    simp only [scoreSparse, hn.ne', if_false]
    rfl

/-! ## C42: accuracy, correctness mask, confusion matrix -/

/-- What C42 says about the result for one value of `k`, for queries `T` (without repetition) and labels `y`. -/
def Consistent (y : Fin n → ℤ) (T : List (Fin n)) (nClasses : ℕ) (q : KRes K n) : Prop :=
  (∀ i, q.corr i = 0 ∨ q.corr i = 1) ∧ (∀ i, i ∉ T → q.corr i = 0) ∧
  q.acc = ((∑ i, q.corr i : ℕ) : K) / (T.length : K) ∧
  (∑ a ∈ Finset.range nClasses, q.cmat a a) = ∑ i, q.corr i ∧
  (∀ i, (∑ b ∈ Finset.range nClasses, q.cmat (labelRank y (y i)) b)
    = (Finset.univ.filter (fun i' => i' ∈ T ∧ y i' = y i)).card) ∧
  (∑ a ∈ Finset.range nClasses, ∑ b ∈ Finset.range nClasses, q.cmat a b) = T.length ∧
  (∀ a b, q.cmat a b ≠ 0 → a < nClasses ∧ b < nClasses)

theorem rank_eq (y : Fin n → ℤ) (i : Fin n) : encode (labelsOf (List.ofFn y)) (y i) = labelRank y (y i) := by
  rw [encode_eq_rank _ _ (by simp [List.mem_ofFn])]
  unfold labelRank
  congr 1
  ext v
  simp [List.mem_ofFn]

theorem encode_inj_ofFn (y : Fin n → ℤ) (i j : Fin n)
    (h : encode (labelsOf (List.ofFn y)) (y i) = encode (labelsOf (List.ofFn y)) (y j)) : y i = y j :=
  encode_inj (by simp [List.mem_ofFn]) (by simp [List.mem_ofFn]) h

theorem sum_countP_eq {α : Type} (l : List α) (C : ℕ) (p : α → Bool) (f : α → ℕ) (hf : ∀ x ∈ l, f x < C) :
    ∑ b ∈ Finset.range C, l.countP (fun x => p x && decide (b = f x)) = l.countP p := by
  induction l with
  | nil => simp
  | cons a l ih =>
    simp only [List.countP_cons, Finset.sum_add_distrib]
    rw [ih (fun x hx => hf x (by simp [hx]))]
    congr 1
    cases hp : p a
    · simp
    · simp only [Bool.true_and, decide_eq_true_eq]
      rw [Finset.sum_ite_eq' (Finset.range C) (f a) (fun _ => 1)]
      simp [hf a (by simp)]

theorem countP_eq_card {T : List (Fin n)} (hT : T.Nodup) (p : Fin n → Prop) [DecidablePred p] :
    T.countP (fun i => decide (p i)) = (Finset.univ.filter (fun i => i ∈ T ∧ p i)).card := by
  rw [List.countP_eq_length_filter, ← List.toFinset_card_of_nodup (hT.filter _)]
  congr 1
  ext i
  simp

theorem tally_consistent (y : Fin n → ℤ) (T : List (Fin n)) (hT : T.Nodup) (C : ℕ)
    (hC : (labelsOf (List.ofFn y)).length ≤ C) (pred : Fin n → ℕ) (hp : ∀ i ∈ T, pred i < C) :
    Consistent y T C (tally (K := K) T.length T (fun i => encode (labelsOf (List.ofFn y)) (y i)) pred) := by
  set cl := labelsOf (List.ofFn y) with hcl
  have hs : ∀ i, encode cl (y i) < C := fun i => lt_of_lt_of_le (encode_lt (by simp [List.mem_ofFn])) hC
  have hsum : ∑ i, (if i ∈ T ∧ pred i = encode cl (y i) then 1 else 0)
      = T.countP (fun i => decide (pred i = encode cl (y i))) := by
    rw [countP_eq_card hT (fun i => pred i = encode cl (y i)), Finset.card_filter]
  rw [tally_eq]
  refine ⟨?_, ?_, ?_, ?_, ?_, ?_, ?_⟩
  · intro i
    simp only
    split <;> simp
  · intro i hi
    simp [hi]
  · simp only
    rw [hsum]
  · simp only
    rw [hsum]
    have h := sum_countP_eq T C (fun i => decide (pred i = encode cl (y i))) pred hp
    rw [← h]
    apply Finset.sum_congr rfl
    intro a _
    apply List.countP_congr
    intro i _
    simp only [Bool.and_eq_true, decide_eq_true_eq]
    constructor
    · rintro ⟨h1, h2⟩; exact ⟨by rw [← h2, h1], h2⟩
    · rintro ⟨h1, h2⟩; exact ⟨by rw [h2, h1], h2⟩
  · intro i
    simp only
    rw [sum_countP_eq T C (fun i' => decide (labelRank y (y i) = encode cl (y i'))) pred hp]
    rw [← countP_eq_card hT (fun i' => y i' = y i)]
    apply List.countP_congr
    intro i' _
    simp only [decide_eq_true_eq]
    rw [← rank_eq]
    constructor
    · intro h; exact (encode_inj_ofFn y i i' h).symm
    · intro h; rw [h]
  · simp only
    have h1 : ∀ a, ∑ b ∈ Finset.range C, T.countP (fun i => decide (a = encode cl (y i)) && decide (b = pred i))
        = T.countP (fun i => decide (a = encode cl (y i))) := by
      intro a
      exact sum_countP_eq T C (fun i => decide (a = encode cl (y i))) pred hp
    simp only [h1]
    have h2 := sum_countP_eq T C (fun _ => true) (fun i => encode cl (y i)) (fun i _ => hs i)
    simp only [Bool.true_and] at h2
    rw [h2]
    simp
  · intro a b hab
    simp only at hab
    have : 0 < T.countP (fun i => decide (a = encode cl (y i)) && decide (b = pred i)) := Nat.pos_of_ne_zero hab
    obtain ⟨i, hi, hi'⟩ := List.countP_pos_iff.1 this
    simp only [Bool.and_eq_true, decide_eq_true_eq] at hi'
    rw [hi'.1, hi'.2]
    exact ⟨hs i, hp i hi⟩

/-- The predicted class number is in range. -/
theorem vote_lt (y : Fin n → ℤ) {m : ℕ} (u C : ℕ) (hC : (labelsOf (List.ofFn y)).length ≤ C) (hu : u < C)
    (N : List (Fin m)) (f : Fin m → Fin n) :
    vote u (N.map (fun x => encode (labelsOf (List.ofFn y)) (y (f x)))) < C := by
  by_cases hN : N.map (fun x => encode (labelsOf (List.ofFn y)) (y (f x))) = []
  · rw [hN, vote_nil]; exact hu
  · obtain ⟨x, _, hx⟩ := List.mem_map.1 (vote_spec u _ hN).2
    rw [← hx]
    exact lt_of_lt_of_le (encode_lt (by simp [List.mem_ofFn])) hC

theorem labels_length_pos (y : Fin n → ℤ) (i : Fin n) : 0 < (labelsOf (List.ofFn y)).length :=
  lt_of_le_of_lt (Nat.zero_le _) (encode_lt (t := y i) (by simp [List.mem_ofFn]))

/-- **C42 (leave-one-out).** For dense and sparse matrices, any random choices. -/
theorem C42_loo (hn : 0 < n) (srt : ArgSort (XR K)) (o : ArgPart (XR K)) (rnd : Rnd) (sp : Bool)
    (D : Fin n → Fin n → XR K) (y : Fin n → ℤ) (ks : List ℤ) (metric : String)
    (hm : metric = "distance" ∨ metric = "similarity") :
    ∃ r, score srt o rnd (.mat sp n n D) (.vec n y) (.list ks) metric none = .ok ⟨n, r⟩ ∧
      r.perK.length = ks.length ∧ ∀ q ∈ r.perK, Consistent y (List.finRange n) r.nClasses q := by
  cases sp with
  | false =>
    refine ⟨_, score_dense_loo srt o rnd D y ks metric hm, by simp [runDense], ?_⟩
    intro q hq
    obtain ⟨j, _, rfl⟩ := List.mem_map.1 hq
    apply tally_consistent y _ (List.nodup_finRange n) _ le_rfl
    intro i _
    have := labels_length_pos y i
    exact vote_lt y _ _ le_rfl (by omega) _ _root_.id
  | true =>
    refine ⟨_, score_sparse_ok hn srt o rnd D y ks metric hm none, by simp, ?_⟩
    intro q hq
    obtain ⟨j, _, rfl⟩ := List.mem_map.1 hq
    apply tally_consistent y _ (List.nodup_finRange n) _ (by simp)
    intro i _
    exact vote_lt y _ _ (by simp) (by simp) _ _root_.id

theorem trainSet_ok (T : List (Fin n)) (hT : T.Nodup) :
    toFins n (trainSet T) = .ok ((List.finRange n).filter (fun x => decide (x.val < T.length ∧ x ∉ T))) := by
  have hlen : T.length ≤ n := by
    have := hT.length_le_card
    simpa using this
  have h : trainSet T = ((List.finRange n).filter (fun x => decide (x.val < T.length ∧ x ∉ T))).map Fin.val := by
    have h1 : List.range n = (List.finRange n).map Fin.val := by
      apply List.ext_getElem <;> simp
    have h2 : trainSet T = (List.range n).filter (fun x => decide (x < T.length) && decide (x ∉ T.map Fin.val)) := by
      unfold trainSet
      obtain ⟨d, hd⟩ := Nat.exists_eq_add_of_le hlen
      have hr : List.range n = List.range T.length ++ List.map (fun x => T.length + x) (List.range d) := by
        rw [← List.range_add, ← hd]
      rw [hr, List.filter_append]
      have h3 : (List.map (fun x => T.length + x) (List.range d)).filter
          (fun x => decide (x < T.length) && decide (x ∉ T.map Fin.val)) = [] := by
        rw [List.filter_eq_nil_iff]
        intro x hx
        obtain ⟨a, _, rfl⟩ := List.mem_map.1 hx
        simp
      rw [h3, List.append_nil]
      apply List.filter_congr
      intro x hx
      simp [List.mem_range.1 hx]
    rw [h2, h1, List.filter_map]
    congr 1
    apply List.filter_congr
    intro x _
    simp only [Function.comp]
    have : x.val ∈ T.map Fin.val ↔ x ∈ T := by
      constructor
      · intro hx
        obtain ⟨z, hz, hzx⟩ := List.mem_map.1 hx
        rwa [← Fin.ext hzx]
      · intro hx; exact List.mem_map_of_mem hx
    simp only [this, Bool.decide_and]
  rw [h, toFins_map]

/-- **C42 (test set).** For test sets without repeated points. -/
theorem C42_test_set (hn : 0 < n) (srt : ArgSort (XR K)) (o : ArgPart (XR K)) (rnd : Rnd) (sp : Bool)
    (D : Fin n → Fin n → XR K) (y : Fin n → ℤ) (ks : List ℤ) (metric : String)
    (hm : metric = "distance" ∨ metric = "similarity") (T : List (Fin n)) (hT : T.Nodup) :
    ∃ r, score srt o rnd (.mat sp n n D) (.vec n y) (.list ks) metric (some (T.map Fin.val)) = .ok ⟨n, r⟩ ∧
      r.perK.length = ks.length ∧ ∀ q ∈ r.perK, Consistent y T r.nClasses q := by
  cases sp with
  | false =>
    refine ⟨_, score_dense_test srt o rnd D y ks metric hm T _ (trainSet_ok T hT), by simp [runDense], ?_⟩
    intro q hq
    obtain ⟨j, _, rfl⟩ := List.mem_map.1 hq
    apply tally_consistent y _ hT _ le_rfl
    intro i _
    have := labels_length_pos y i
    exact vote_lt y _ _ le_rfl (by omega) _ _root_.id
  | true =>
    refine ⟨_, score_sparse_ok hn srt o rnd D y ks metric hm (some T), by simp, ?_⟩
    intro q hq
    obtain ⟨j, _, rfl⟩ := List.mem_map.1 hq
    apply tally_consistent y _ hT _ (by simp)
    intro i _
    exact vote_lt y _ _ (by simp) (by simp) _ _root_.id

/-! ## C43: prediction by vote of the nearest neighbours -/

/-- What C43 says about the result `q` of one `k`: there are predicted labels `pred` which explain the correctness mask
and the confusion matrix, and for each query satisfying `ok` the predicted label is the outcome of the vote of a
neighbour list satisfying `nb`. -/
def Explained (y : Fin n → ℤ) (T : List (Fin n)) (q : KRes K n) {m : ℕ} (lab : Fin m → ℤ) (ok : Fin n → Prop)
    (nb : Fin n → List (Fin m) → Prop) : Prop :=
  ∃ pred : Fin n → ℤ,
    (∀ i, ok i → i ∈ T → q.corr i = if pred i = y i then 1 else 0) ∧
    ((∀ i ∈ T, ok i) → ∀ a b, q.cmat (labelRank y (y a)) (labelRank y (y b))
      = T.countP (fun i => decide (y i = y a) && decide (pred i = y b))) ∧
    (∀ i, ok i → ∃ N, N ≠ [] ∧ nb i N ∧ IsVote (N.map lab) (pred i))

theorem explained_of (y : Fin n → ℤ) (T : List (Fin n)) {m : ℕ} (f : Fin m → Fin n) (ok : Fin n → Prop)
    (nb : Fin n → List (Fin m) → Prop) (N : Fin n → List (Fin m)) (u cnt : ℕ)
    (h : ∀ i, ok i → N i ≠ [] ∧ nb i (N i)) :
    Explained y T (tally (K := K) cnt T (fun i => encode (labelsOf (List.ofFn y)) (y i))
      (fun i => vote u ((N i).map (fun x => encode (labelsOf (List.ofFn y)) (y (f x)))))) (fun x => y (f x)) ok nb := by
  set cl := labelsOf (List.ofFn y) with hcl
  have hin : ∀ i, y i ∈ List.ofFn y := fun i => by simp [List.mem_ofFn]
  -- the voted label
  have hv : ∀ i, ok i → ∃ x, x ∈ N i ∧ encode cl (y (f x)) = vote u ((N i).map (fun x => encode cl (y (f x)))) ∧
      IsVote ((N i).map (fun x => y (f x))) (y (f x)) := by
    intro i hi
    have hne : (N i).map (fun x => encode cl (y (f x))) ≠ [] := by
      rw [ne_eq, List.map_eq_nil_iff]; exact (h i hi).1
    obtain ⟨h1, h2⟩ := vote_spec u _ hne
    obtain ⟨x, hx, hxv⟩ := List.mem_map.1 h2
    refine ⟨x, hx, hxv, ?_⟩
    apply isVote_map (encode cl) _ _ (List.mem_map.2 ⟨x, hx, rfl⟩)
    · intro a ha b hb hab
      obtain ⟨xa, _, rfl⟩ := List.mem_map.1 ha
      obtain ⟨xb, _, rfl⟩ := List.mem_map.1 hb
      exact encode_inj_ofFn y _ _ hab
    · rw [List.map_map]
      rw [← hxv] at h1
      exact h1
  obtain ⟨pred, hpred⟩ : ∃ pred : Fin n → ℤ, ∀ i, pred i = cl.getD (vote u ((N i).map (fun x => encode cl (y (f x))))) 0 :=
    ⟨_, fun _ => rfl⟩
  have hpred' : ∀ i x, encode cl (y (f x)) = vote u ((N i).map (fun x => encode cl (y (f x)))) → pred i = y (f x) := by
    intro i x hx
    rw [hpred, ← hx, labels_getD (hin _)]
  refine ⟨pred, ?_, ?_, ?_⟩
  · intro i hi hiT
    obtain ⟨x, _, hx2, _⟩ := hv i hi
    rw [tally_eq]
    simp only [hiT, true_and]
    rw [← hx2, hpred' i x hx2]
    by_cases hc : y (f x) = y i
    · rw [if_pos (by rw [hc]), if_pos hc]
    · rw [if_neg (fun hh => hc (encode_inj_ofFn y _ _ hh)), if_neg hc]
  · intro hall a b
    rw [tally_eq]
    simp only
    apply List.countP_congr
    intro i hi
    obtain ⟨x, _, hx2, _⟩ := hv i (hall i hi)
    simp only [Bool.and_eq_true, decide_eq_true_eq]
    rw [← hx2, hpred' i x hx2, ← rank_eq, ← rank_eq]
    constructor
    · rintro ⟨h1, h2⟩; exact ⟨(encode_inj_ofFn y _ _ h1).symm, (encode_inj_ofFn y _ _ h2).symm⟩
    · rintro ⟨h1, h2⟩; exact ⟨by rw [h1], by rw [h2]⟩
  · intro i hi
    obtain ⟨x, hx1, hx2, hx3⟩ := hv i hi
    refine ⟨N i, (h i hi).1, (h i hi).2, ?_⟩
    rw [hpred' i x hx2]
    exact hx3

/-- Removing the masked positions from the candidates. -/
theorem isKNN_mask (metric : String) {m : ℕ} (d : Fin m → XR K) (p : Fin m → Prop) [DecidablePred p]
    (cand : Finset (Fin m)) (k : ℕ) (N : List (Fin m))
    (h : IsKNN metric (fun x => if p x then dSelf metric else d x) cand k N) :
    IsKNN metric d (cand.filter (fun x => ¬ p x)) k N := by
  have hself : (dSelf metric : XR K).isFinite = false := by unfold dSelf; split <;> rfl
  have hni : ∀ x ∈ N, ¬ p x := by
    intro x hx hp
    have := (h.mem x hx).2
    rw [if_pos hp, hself] at this
    cases this
  refine ⟨h.nodup, ?_, ?_, ?_, ?_⟩
  · intro x hx
    have := h.mem x hx
    rw [if_neg (hni x hx)] at this
    exact ⟨Finset.mem_filter.2 ⟨this.1, hni x hx⟩, this.2⟩
  · refine h.sorted.imp_of_mem ?_
    intro x z hx hz hxz
    simpa only [if_neg (hni x hx), if_neg (hni z hz)] using hxz
  · intro x hx z hz hzf hzN
    have hz' := Finset.mem_filter.1 hz
    have := h.nearest x hx z hz'.1 (by rw [if_neg hz'.2]; exact hzf) hzN
    simpa only [if_neg (hni x hx), if_neg hz'.2] using this
  · rw [h.length]
    congr 2
    ext x
    simp only [Finset.mem_filter]
    by_cases hx : p x
    · simp [hx, hself]
    · simp [hx]

/-- The result of `runDense` for the `j`-th `k`. -/
theorem runDense_get (srt : ArgSort (XR K)) (rnd : Rnd) {m : ℕ} (metric : String) (ks : List ℤ) (C : ℕ)
    (T : List (Fin n)) (row : Fin n → Fin m → XR K) (cand : List (Fin m)) (seed : Fin n → ℕ) (col : Fin m → ℕ)
    (j : ℕ) (hj : j < ks.length) :
    (runDense srt rnd metric ks C T row cand seed col).perK[j]? = some (tally T.length T seed (fun i =>
      vote (C - 1) (((nnLists (row i) (rnd.again i.val) ks 0
        (order srt metric (row i) (rnd.first i.val cand))).getD j []).map col))) := by
  unfold runDense
  simp only [List.getElem?_map, List.getElem?_range hj, Option.map_some]

/-- The neighbours found in a row with masked positions `p` among candidates `cand`. -/
theorem neighbours_mask (srt : ArgSort (XR K)) (rnd : Rnd) {m : ℕ} (d : Fin m → XR K) (p : Fin m → Prop)
    [DecidablePred p] (ks : List ℤ) (hk : ∀ k ∈ ks, 1 ≤ k) (metric : String) (cand : List (Fin m)) (hc : cand.Nodup)
    (i : ℕ) (hfin : ∃ x ∈ cand, ¬ p x ∧ (d x).isFinite = true) (htoo : ∀ x ∈ cand, ¬ p x → d x ≠ tooNear metric)
    (row : Fin m → XR K) (hrow : row = fun x => if p x then dSelf metric else d x)
    (j : ℕ) (hj : j < ks.length) :
    let N := (nnLists row (rnd.again i) ks 0 (order srt metric row (rnd.first i cand))).getD j []
    N ≠ [] ∧ IsKNN metric d (cand.toFinset.filter (fun x => ¬ p x)) (ks[j]).toNat N := by
  subst hrow
  intro N
  obtain ⟨x, hxc, hxi, hxf⟩ := hfin
  have hperm := rnd.first_perm i cand
  have h := nnLists_isKNN srt metric (fun x => if p x then dSelf metric else d x) (rnd.again i) ks
    (rnd.first i cand) (hperm.nodup_iff.2 hc) hk
    ⟨x, hperm.mem_iff.2 hxc, by rw [if_neg hxi]; exact hxf⟩
    (by
      intro z hz
      by_cases hzi : p z
      · rw [if_pos hzi]
        unfold dSelf tooNear
        split <;> simp
      · rw [if_neg hzi]; exact htoo z (hperm.mem_iff.1 hz) hzi) j hj
  refine ⟨h.1, ?_⟩
  have h2 : (Finset.univ.filter (· ∈ rnd.first i cand)) = cand.toFinset := by
    ext z; simp [hperm.mem_iff]
  have h3 := isKNN_mask metric d p _ _ _ h.2
  rw [h2] at h3
  exact h3

/-- The neighbours found for query `i` of a square matrix. -/
theorem neighbours_spec (srt : ArgSort (XR K)) (rnd : Rnd) (D : Fin n → Fin n → XR K) (ks : List ℤ)
    (hk : ∀ k ∈ ks, 1 ≤ k) (metric : String) (cand : List (Fin n)) (hc : cand.Nodup) (i : Fin n)
    (hfin : ∃ x ∈ cand, x ≠ i ∧ (D i x).isFinite = true) (htoo : ∀ x ∈ cand, x ≠ i → D i x ≠ tooNear metric)
    (j : ℕ) (hj : j < ks.length) :
    let row := Function.update (D i) i (dSelf metric)
    let N := (nnLists row (rnd.again i.val) ks 0 (order srt metric row (rnd.first i.val cand))).getD j []
    N ≠ [] ∧ IsKNN metric (D i) (cand.toFinset.erase i) (ks[j]).toNat N := by
  intro row N
  have h := neighbours_mask srt rnd (D i) (fun x => x = i) ks hk metric cand hc i.val hfin htoo row
    (by funext x; simp only [row, Function.update_apply]) j hj
  refine ⟨h.1, ?_⟩
  have h2 : cand.toFinset.filter (fun x => ¬ x = i) = cand.toFinset.erase i := by
    ext z; simp [and_comm]
  have h3 := h.2
  rw [h2] at h3
  exact h3

/-- **C43 (dense, leave-one-out).** With every `k ≥ 1`: each point which has a neighbour at finite distance and none at
the infinite distance "nearer than finite" is classified by the vote of its `k` nearest finite neighbours other than
itself. -/
theorem C43_dense_loo (srt : ArgSort (XR K)) (o : ArgPart (XR K)) (rnd : Rnd) (D : Fin n → Fin n → XR K)
    (y : Fin n → ℤ) (ks : List ℤ) (hk : ∀ k ∈ ks, 1 ≤ k) (metric : String)
    (hm : metric = "distance" ∨ metric = "similarity") :
    ∃ r, score srt o rnd (.mat false n n D) (.vec n y) (.list ks) metric none = .ok ⟨n, r⟩ ∧
      ∀ j (hj : j < ks.length), ∃ q, r.perK[j]? = some q ∧
        Explained y (List.finRange n) q y
          (fun i => (∃ x, x ≠ i ∧ (D i x).isFinite = true) ∧ ∀ x, x ≠ i → D i x ≠ tooNear metric)
          (fun i => IsKNN metric (D i) (Finset.univ.erase i) (ks[j]).toNat) := by
  refine ⟨_, score_dense_loo srt o rnd D y ks metric hm, ?_⟩
  intro j hj
  refine ⟨_, runDense_get srt rnd metric ks _ _ _ _ _ _ j hj, ?_⟩
  apply explained_of y (List.finRange n) _root_.id
  rintro i ⟨⟨x, hxi, hxf⟩, htoo⟩
  have h := neighbours_spec srt rnd D ks hk metric (List.finRange n) (List.nodup_finRange n) i
    ⟨x, List.mem_finRange x, hxi, hxf⟩ (fun x _ => htoo x) j hj
  simpa using h

/-- **C43 (distances to samples).** Without the query's own sample. -/
theorem C43_samples {s : ℕ} (srt : ArgSort (XR K)) (rnd : Rnd) (D : Fin n → Fin s → XR K)
    (y : Fin n → ℤ) (ks : List ℤ) (hk : ∀ k ∈ ks, 1 ≤ k) (metric : String) (idx : Fin s → Fin n) :
    ∀ j (hj : j < ks.length), ∃ q, (scoreSample srt rnd metric ks D y idx).perK[j]? = some q ∧
        Explained y (List.finRange n) q (fun x => y (idx x))
          (fun i => (∃ x, idx x ≠ i ∧ (D i x).isFinite = true) ∧ ∀ x, idx x ≠ i → D i x ≠ tooNear metric)
          (fun i => IsKNN metric (D i) (Finset.univ.filter (fun x => idx x ≠ i)) (ks[j]).toNat) := by
  intro j hj
  refine ⟨_, runDense_get srt rnd metric ks _ _ _ _ _ _ j hj, ?_⟩
  apply explained_of y (List.finRange n) idx
  rintro i ⟨⟨x, hxi, hxf⟩, htoo⟩
  have h := neighbours_mask srt rnd (D i) (fun x => i = idx x) ks hk metric (List.finRange s) (List.nodup_finRange s)
    i.val ⟨x, List.mem_finRange x, fun h => hxi h.symm, hxf⟩ (fun x _ hx => htoo x (fun h => hx h.symm)) _ rfl j hj
  refine ⟨h.1, ?_⟩
  have h2 : (List.finRange s).toFinset.filter (fun x => ¬ i = idx x) = Finset.univ.filter (fun x => idx x ≠ i) := by
    ext z; simp [eq_comm]
  have h3 := h.2
  rw [h2] at h3
  exact h3

/-- The neighbours found in a sparse row whose self similarity is the strictly largest one. -/
theorem sparse_neighbours (o : ArgPart (XR K)) (rnd : Rnd) (D : Fin n → Fin n → XR K)
    (ks : List ℤ) (hk : ∀ k ∈ ks, 1 ≤ k) (i : Fin n) (hf : ∀ x, (D i x).isFinite = true) (hii : D i i ≠ .fin 0)
    (hmax : ∀ x, x ≠ i → D i x ≠ .fin 0 → D i x < D i i) (hx : ∃ x, x ≠ i ∧ D i x ≠ .fin 0)
    (j : ℕ) (hj : j < ks.length) :
    let N := (nnLists (D i) (rnd.again i.val) ks 0
      (sparseOrder o (D i) ks (rnd.first i.val (storedCols (D i))))).getD j []
    N ≠ [] ∧ IsKNNFirst "similarity" (D i) (Finset.univ.filter (fun x => x ≠ i ∧ D i x ≠ .fin 0)) (ks[j]).toNat N := by
  intro N
  obtain ⟨x, hxi, hx0⟩ := hx
  have hperm := rnd.first_perm i.val (storedCols (D i))
  have hnd : (storedCols (D i)).Nodup := (List.nodup_finRange n).filter _
  have hmem : ∀ z, z ∈ rnd.first i.val (storedCols (D i)) ↔ D i z ≠ .fin 0 := by
    intro z
    rw [hperm.mem_iff]
    simp [storedCols]
  have h := sparseOrder_spec o (D i) ks (rnd.first i.val (storedCols (D i))) (hperm.nodup_iff.2 hnd)
    (fun z _ => hf z) i ((hmem i).2 hii) (fun z hz hzi => hmax z hzi ((hmem z).1 hz)) ks[j]
    (List.getElem_mem hj) (hk _ (List.getElem_mem hj))
  have hL : N = (sparseOrder o (D i) ks (rnd.first i.val (storedCols (D i)))).take (ks[j]).toNat := by
    simp only [N]
    rw [nnLists_all_finite (D i) (rnd.again i.val) (rnd.again_perm i.val) ks 0 _ (fun z _ => hf z) hk]
    simp [hj]
  have h2 : (Finset.univ.filter (fun z => z ∈ rnd.first i.val (storedCols (D i)) ∧ z ≠ i))
      = Finset.univ.filter (fun z => z ≠ i ∧ D i z ≠ .fin 0) := by
    ext z; simp [hmem, and_comm]
  rw [h2, ← hL] at h
  refine ⟨?_, h⟩
  intro hnil
  have hl := h.length
  rw [hnil, List.length_nil] at hl
  have h1 : 1 ≤ (ks[j]).toNat := by have := hk _ (List.getElem_mem hj); omega
  have h3 : 0 < ((Finset.univ.filter (fun z => z ≠ i ∧ D i z ≠ .fin 0)).filter
      (fun z => (D i z).isFinite = true)).card :=
    Finset.card_pos.2 ⟨x, by simp [hxi, hx0, hf]⟩
  omega

/-- **C43 (sparse similarities).** If the self similarity is the strictly largest one of the row. The stored entries
are the candidates. -/
theorem C43_sparse_loo (hn : 0 < n) (srt : ArgSort (XR K)) (o : ArgPart (XR K)) (rnd : Rnd) (D : Fin n → Fin n → XR K)
    (y : Fin n → ℤ) (ks : List ℤ) (hk : ∀ k ∈ ks, 1 ≤ k) :
    ∃ r, score srt o rnd (.mat true n n D) (.vec n y) (.list ks) "similarity" none = .ok ⟨n, r⟩ ∧
      ∀ j (hj : j < ks.length), ∃ q, r.perK[j]? = some q ∧
        Explained y (List.finRange n) q y
          (fun i => (∀ x, (D i x).isFinite = true) ∧ D i i ≠ .fin 0 ∧ (∀ x, x ≠ i → D i x ≠ .fin 0 → D i x < D i i) ∧
            ∃ x, x ≠ i ∧ D i x ≠ .fin 0)
          (fun i => IsKNNFirst "similarity" (D i) (Finset.univ.filter (fun x => x ≠ i ∧ D i x ≠ .fin 0))
            (ks[j]).toNat) := by
  refine ⟨_, score_sparse_ok hn srt o rnd D y ks "similarity" (.inr rfl) none, ?_⟩
  intro j hj
  refine ⟨_, ?_, explained_of y (List.finRange n) _root_.id _ _
    (fun i => (nnLists (D i) (rnd.again i.val) ks 0
      (sparseOrder o (D i) ks (rnd.first i.val (storedCols (D i))))).getD j []) (labelsOf (List.ofFn y)).length
    (List.finRange n).length ?_⟩
  · simp only [List.getElem?_map, List.getElem?_range hj, Option.map_some, Option.getD_none]
    rfl
  · rintro i ⟨hf, hii, hmax, hx⟩
    exact sparse_neighbours o rnd D ks hk i hf hii hmax hx j hj

/-! ### `predict` -/

/-- Labels of all points and columns. -/
def allLabels {c : ℕ} (y : Fin n → Fin c → ℤ) : Fin n × Fin c → ℤ := fun p => y p.1 p.2

/-- Label list of `predict`. -/
def predLabels {c : ℕ} (y : Fin n → Fin c → ℤ) : List ℤ :=
  labelsOf (List.flatMap (fun i => List.ofFn (y i)) (List.finRange n))

/-- Neighbour lists of `predict`. -/
def predNN (srt : ArgSort (XR K)) (rnd : Rnd) (metric : String) (ks : List ℤ) (D : Fin n → Fin n → XR K) (i : Fin n) :
    List (List (Fin n)) :=
  nnLists (Function.update (D i) i (dSelf metric)) (rnd.again i.val) ks 0
    (order srt metric (Function.update (D i) i (dSelf metric)) (rnd.first i.val (List.finRange n)))

theorem predNN_ne_nil (srt : ArgSort (XR K)) (rnd : Rnd) (metric : String) (ks : List ℤ) (hk : ∀ k ∈ ks, 1 ≤ k)
    (D : Fin n → Fin n → XR K) (i : Fin n) : ∀ N ∈ predNN srt rnd metric ks D i, N ≠ [] := by
  apply nnLists_ne_nil _ _ (rnd.again_perm i.val) ks hk
  intro h
  have hp := order_perm srt metric (Function.update (D i) i (dSelf metric)) (rnd.first i.val (List.finRange n))
  rw [h] at hp
  have : i ∈ (rnd.first i.val (List.finRange n)).filter
      (fun x => decide (Function.update (D i) i (dSelf metric) x ≠ .nan)) := by
    rw [List.mem_filter]
    refine ⟨(rnd.first_perm i.val (List.finRange n)).mem_iff.2 (List.mem_finRange i), ?_⟩
    rw [Function.update_self]
    unfold dSelf
    split <;> rfl
  rw [← hp.mem_iff] at this
  cases this

theorem predict_ok {c : ℕ} (srt : ArgSort (XR K)) (rnd : Rnd) (D : Fin n → Fin n → XR K) (y : Fin n → Fin c → ℤ)
    (ks : List ℤ) (hk : ∀ k ∈ ks, 1 ≤ k) (metric : String) (hm : metric = "distance" ∨ metric = "similarity") :
    predict srt rnd D y (.list ks) metric none = .ok
      { yPred := fun j i l => vote 0 (((predNN srt rnd metric ks D i).getD j []).map
          (fun x => encode (predLabels y) (y x l)))
        cmat := fun j l a b => (List.finRange n).countP (fun i => decide (encode (predLabels y) (y i l) = a) &&
          decide (vote 0 (((predNN srt rnd metric ks D i).getD j []).map
          (fun x => encode (predLabels y) (y x l))) = b)) } := by
  have hne : ¬ (0 < c ∧ (List.finRange n).any (fun i => (predNN srt rnd metric ks D i).any List.isEmpty) = true) := by
    rintro ⟨-, h⟩
    obtain ⟨i, _, hi⟩ := List.any_eq_true.1 h
    obtain ⟨N, hN, hN'⟩ := List.any_eq_true.1 hi
    exact predNN_ne_nil srt rnd metric ks hk D i N hN (List.isEmpty_iff.1 hN')
  have hcv : checkValidMetric metric = .ok () := by rcases hm with rfl | rfl <;> rfl
  unfold predict
  rw [dif_pos rfl, hcv]
  exact if_neg hne

/-- The winning label of a vote on label numbers. -/
theorem vote_label {β : Type} (u : ℕ) (L : List ℤ) (N : List β) (f : β → ℤ) (hf : ∀ x, f x ∈ L) (hN : N ≠ []) :
    ∃ v ∈ L, encode (labelsOf L) v = vote u (N.map (fun x => encode (labelsOf L) (f x))) ∧ IsVote (N.map f) v := by
  have hne : N.map (fun x => encode (labelsOf L) (f x)) ≠ [] := by
    rw [ne_eq, List.map_eq_nil_iff]; exact hN
  obtain ⟨h1, h2⟩ := vote_spec u _ hne
  obtain ⟨x, hx, hxv⟩ := List.mem_map.1 h2
  refine ⟨f x, hf x, hxv, ?_⟩
  apply isVote_map (encode (labelsOf L)) _ _ (List.mem_map.2 ⟨x, hx, rfl⟩)
  · intro a ha b hb hab
    obtain ⟨xa, _, rfl⟩ := List.mem_map.1 ha
    obtain ⟨xb, _, rfl⟩ := List.mem_map.1 hb
    exact encode_inj (hf _) (hf _) hab
  · rw [List.map_map]
    rw [← hxv] at h1
    exact h1

theorem mem_predLabels {c : ℕ} (y : Fin n → Fin c → ℤ) (i : Fin n) (l : Fin c) :
    y i l ∈ List.flatMap (fun i => List.ofFn (y i)) (List.finRange n) := by
  rw [List.mem_flatMap]
  exact ⟨i, List.mem_finRange i, by simp [List.mem_ofFn]⟩

theorem pred_rank_eq {c : ℕ} (y : Fin n → Fin c → ℤ) (v : ℤ)
    (hv : v ∈ List.flatMap (fun i => List.ofFn (y i)) (List.finRange n)) :
    encode (predLabels y) v = labelRank (allLabels y) v := by
  unfold predLabels
  rw [encode_eq_rank _ _ hv]
  unfold labelRank
  congr 1
  ext w
  simp [List.mem_flatMap, List.mem_ofFn, allLabels]

/-- **C43 (`predict`).** -/
theorem C43_predict {c : ℕ} (srt : ArgSort (XR K)) (rnd : Rnd) (D : Fin n → Fin n → XR K) (y : Fin n → Fin c → ℤ)
    (ks : List ℤ) (hk : ∀ k ∈ ks, 1 ≤ k) (metric : String) (hm : metric = "distance" ∨ metric = "similarity") :
    ∃ r, predict srt rnd D y (.list ks) metric none = .ok r ∧ ∀ j (hj : j < ks.length),
      (∀ i, (∃ x, x ≠ i ∧ (D i x).isFinite = true) → (∀ x, x ≠ i → D i x ≠ tooNear metric) → ∀ l,
        ∃ N v, N ≠ [] ∧ IsKNN metric (D i) (Finset.univ.erase i) (ks[j]).toNat N ∧ IsVote (N.map (fun x => y x l)) v ∧
          r.yPred j i l = labelRank (allLabels y) v) ∧
      ∀ l a b, r.cmat j l a b
        = (Finset.univ.filter (fun i => labelRank (allLabels y) (y i l) = a ∧ r.yPred j i l = b)).card := by
  refine ⟨_, predict_ok srt rnd D y ks hk metric hm, ?_⟩
  intro j hj
  refine ⟨?_, ?_⟩
  · rintro i ⟨x, hxi, hxf⟩ htoo l
    have h := neighbours_spec srt rnd D ks hk metric (List.finRange n) (List.nodup_finRange n) i
      ⟨x, List.mem_finRange x, hxi, hxf⟩ (fun x _ => htoo x) j hj
    obtain ⟨v, hv1, hv2, hv3⟩ := vote_label 0 _ _ (fun x => y x l) (fun x => mem_predLabels y x l) h.1
    refine ⟨_, v, h.1, by simpa using h.2, hv3, ?_⟩
    rw [← pred_rank_eq y v hv1]
    exact hv2.symm
  · intro l a b
    simp only
    rw [← List.toFinset_finRange, List.countP_eq_length_filter,
      ← List.toFinset_card_of_nodup ((List.nodup_finRange n).filter _)]
    congr 1
    ext i
    simp [pred_rank_eq y (y i l) (mem_predLabels y i l)]

/-! ## C44: the own label does not count -/

/-- The neighbours of a point do not include the point itself. -/
theorem predNN_not_mem (srt : ArgSort (XR K)) (rnd : Rnd) (D : Fin n → Fin n → XR K)
    (ks : List ℤ) (hk : ∀ k ∈ ks, 1 ≤ k) (metric : String) (i : Fin n)
    (hfin : ∃ x, x ≠ i ∧ (D i x).isFinite = true) (htoo : ∀ x, x ≠ i → D i x ≠ tooNear metric) (j : ℕ) :
    ∀ x ∈ (predNN srt rnd metric ks D i).getD j [], x ≠ i := by
  intro x hx
  by_cases hj : j < ks.length
  · obtain ⟨z, hzi, hzf⟩ := hfin
    have h := neighbours_spec srt rnd D ks hk metric (List.finRange n) (List.nodup_finRange n) i
      ⟨z, List.mem_finRange z, hzi, hzf⟩ (fun x _ => htoo x) j hj
    exact (Finset.mem_erase.1 (h.2.mem x hx).1).1
  · rw [List.getD_eq_default _ _ (by rw [predNN, nnLists_length]; omega)] at hx
    cases hx

/-- **C44 (`predict`).** For labellings with the same labels which differ only at point `i`. -/
theorem C44_predict {c : ℕ} (srt : ArgSort (XR K)) (rnd : Rnd) (D : Fin n → Fin n → XR K) (y y' : Fin n → Fin c → ℤ)
    (ks : List ℤ) (hk : ∀ k ∈ ks, 1 ≤ k) (metric : String) (hm : metric = "distance" ∨ metric = "similarity")
    (i : Fin n) (hy : ∀ x, x ≠ i → y' x = y x) (hset : Set.range (allLabels y') = Set.range (allLabels y))
    (hfin : ∃ x, x ≠ i ∧ (D i x).isFinite = true) (htoo : ∀ x, x ≠ i → D i x ≠ tooNear metric) :
    ∃ r r', predict srt rnd D y (.list ks) metric none = .ok r ∧ predict srt rnd D y' (.list ks) metric none = .ok r' ∧
      ∀ j l, r'.yPred j i l = r.yPred j i l := by
  refine ⟨_, _, predict_ok srt rnd D y ks hk metric hm, predict_ok srt rnd D y' ks hk metric hm, ?_⟩
  intro j l
  simp only
  congr 1
  apply List.map_congr_left
  intro x hx
  have hx' := predNN_not_mem srt rnd D ks hk metric i hfin htoo j x hx
  have himg : ∀ w : Fin n → Fin c → ℤ, (Finset.univ.image (allLabels w) : Set ℤ) = Set.range (allLabels w) := by
    intro w; simp
  have : Finset.univ.image (allLabels y') = Finset.univ.image (allLabels y) := by
    apply Finset.coe_injective
    rw [himg, himg, hset]
  rw [pred_rank_eq y' _ (mem_predLabels y' x l), pred_rank_eq y _ (mem_predLabels y x l), hy x hx']
  unfold labelRank
  rw [this]

/-- If point `i` is not among its neighbours `N i`, it is not classified correctly under two different labels. -/
theorem not_both {N : Fin n → List (Fin n)} {i : Fin n} {y y' : Fin n → ℤ} (hne0 : N i ≠ []) (hN : ∀ x ∈ N i, x ≠ i)
    (hy : ∀ x, x ≠ i → y' x = y x) (hne : y' i ≠ y i) (T : List (Fin n)) (cnt u u' : ℕ) :
    ¬ ((tally (K := K) cnt T (fun i => encode (labelsOf (List.ofFn y)) (y i))
          (fun i => vote u ((N i).map (fun i => encode (labelsOf (List.ofFn y)) (y i))))).corr i = 1 ∧
       (tally (K := K) cnt T (fun i => encode (labelsOf (List.ofFn y')) (y' i))
          (fun i => vote u' ((N i).map (fun i => encode (labelsOf (List.ofFn y')) (y' i))))).corr i = 1) := by
  have key : ∀ (u : ℕ) (w : Fin n → ℤ), ∃ v, IsVote ((N i).map w) v ∧ ((tally (K := K) cnt T
      (fun i => encode (labelsOf (List.ofFn w)) (w i)) (fun i => vote u
        ((N i).map (fun i => encode (labelsOf (List.ofFn w)) (w i))))).corr i = 1
          → v = w i) := by
    intro u w
    obtain ⟨v, hv1, hv2, hv3⟩ := vote_label u (List.ofFn w) (N i) w (fun x => by simp [List.mem_ofFn]) hne0
    refine ⟨v, hv3, ?_⟩
    rw [tally_eq]
    simp only
    intro hc
    by_contra hvw
    rw [if_neg] at hc
    · cases hc
    · rw [← hv2]
      exact fun hh => hvw (encode_inj hv1 (by simp [List.mem_ofFn]) hh.2)
  rintro ⟨hc, hc'⟩
  obtain ⟨v, hv, hvw⟩ := key u y
  obtain ⟨v', hv', hvw'⟩ := key u' y'
  have hmap : (N i).map y' = (N i).map y := List.map_congr_left (fun x hx => hy x (hN x hx))
  rw [hmap] at hv'
  have hvv : v = v' := by
    by_cases hs : ∃ a, StrictMode ((N i).map y) a
    · obtain ⟨a, ha⟩ := hs
      rw [hv.1 a ha, hv'.1 a ha]
    · push Not at hs
      have := (hv.2 hs).symm.trans (hv'.2 hs)
      exact Option.some.inj this
  exact hne ((hvw' hc').symm.trans (hvv.symm.trans (hvw hc)))

/-- **C44 (`score`).** Under two labellings which differ only in the label of point `i`, point `i` is not classified
correctly both times. -/
theorem C44_score (srt : ArgSort (XR K)) (o : ArgPart (XR K)) (rnd : Rnd) (D : Fin n → Fin n → XR K)
    (y y' : Fin n → ℤ) (ks : List ℤ) (hk : ∀ k ∈ ks, 1 ≤ k) (metric : String)
    (hm : metric = "distance" ∨ metric = "similarity") (i : Fin n) (hy : ∀ x, x ≠ i → y' x = y x)
    (hne : y' i ≠ y i) (hfin : ∃ x, x ≠ i ∧ (D i x).isFinite = true) (htoo : ∀ x, x ≠ i → D i x ≠ tooNear metric) :
    ∃ r r', score srt o rnd (.mat false n n D) (.vec n y) (.list ks) metric none = .ok ⟨n, r⟩ ∧
      score srt o rnd (.mat false n n D) (.vec n y') (.list ks) metric none = .ok ⟨n, r'⟩ ∧
      ∀ j, j < ks.length → ∃ q q', r.perK[j]? = some q ∧ r'.perK[j]? = some q' ∧ ¬ (q.corr i = 1 ∧ q'.corr i = 1) := by
  refine ⟨_, _, score_dense_loo srt o rnd D y ks metric hm, score_dense_loo srt o rnd D y' ks metric hm, ?_⟩
  intro j hj
  refine ⟨_, _, runDense_get srt rnd metric ks _ _ _ _ _ _ j hj, runDense_get srt rnd metric ks _ _ _ _ _ _ j hj, ?_⟩
  have hN := predNN_not_mem srt rnd D ks hk metric i hfin htoo j
  obtain ⟨z, hzi, hzf⟩ := hfin
  have h := neighbours_spec srt rnd D ks hk metric (List.finRange n) (List.nodup_finRange n) i
      ⟨z, List.mem_finRange z, hzi, hzf⟩ (fun x _ => htoo x) j hj
  exact not_both (N := fun i => (predNN srt rnd metric ks D i).getD j []) h.1 hN hy hne _ _ _ _

end HubToolbox.Knn
