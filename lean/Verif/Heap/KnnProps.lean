import Verif.Heap.Knn
import Verif.Knn.Lemmas

/-!
# kNN classification: what happens to the matrix
-/

set_option autoImplicit false

namespace HubToolbox.Heap

open HubToolbox HubToolbox.Knn

variable {K : Type} [Field K] [LinearOrder K]

/-! ### The argument stays as it is -/

theorem scoreH_keeps (srt : ArgSort (XR K)) (o : ArgPart (XR K)) (rnd : Rnd) {n s : ℕ} (sparse : Bool) (D : Arr n n)
    (target : Fin n → ℤ) (k : KArg) (metric : String) (test : Option (List ℕ)) :
    Keeps s (fun _ => True) (scoreH srt o rnd sparse D target k metric test) := by
  unfold scoreH
  refine Keeps.bind (Keeps.lift _) fun _ _ => Keeps.bind (Keeps.copy D) fun D' hD => Keeps.bind (Keeps.lift _) fun _ _ =>
    Keeps.bind (Keeps.lift _) fun _ _ => Keeps.ite (Keeps.bind (Keeps.read _) fun _ _ => Keeps.lift _) ?_
  refine Keeps.bind (Keeps.lift _) fun _ _ => Keeps.bind (Keeps.foldlM _ _ _ fun b i => ?_) fun _ _ => Keeps.pure _ trivial
  exact Keeps.rowStep false D' hD.2 _ (fun i d hd => Keeps.storeAt d hd i _) _ i

theorem scoreSampleH_keeps (srt : ArgSort (XR K)) (rnd : Rnd) {n m s : ℕ} (D : Arr n m) (target : Fin n → ℤ) (k : KArg)
    (metric : String) (idx : Fin m → Fin n) : Keeps s (fun _ => True) (scoreSampleH srt rnd D target k metric idx) := by
  unfold scoreSampleH
  refine Keeps.bind (Keeps.lift _) fun _ _ => Keeps.bind (Keeps.copy D) fun D' hD => Keeps.bind (Keeps.lift _) fun _ _ =>
    Keeps.bind (Keeps.storeSamples D' hD.2 idx _) fun _ _ => Keeps.bind (Keeps.foldlM _ _ _ fun b i => ?_) fun _ _ =>
    Keeps.pure _ trivial
  exact Keeps.rowStep false D' hD.2 _ (fun i d hd => Keeps.pure _ trivial) _ i

/-- Passes over dense copies of the rows of a sparse matrix. -/
theorem Keeps.rowStep_sparse {α β : Type} {n m s : ℕ} (D : Arr n m) (f : Fin n → (Fin m → Addr) → M α Unit)
    (hf : ∀ i d, (∀ j, s ≤ (d j).1) → Keeps s (fun _ => True) (f i d)) (G : Fin n → (Fin m → α) → Py β) (i : Fin n) :
    Keeps s (fun _ => True) (Heap.rowStep true D f G i) :=
  Keeps.bind (Keeps.copyRow (D i)) fun d hd => Keeps.bind (hf i d hd) fun _ _ =>
    Keeps.bind (Keeps.readV d) fun _ _ => Keeps.lift _

theorem predictH_keeps (srt : ArgSort (XR K)) (rnd : Rnd) {n c s : ℕ} (sparse : Bool) (D : Arr n n) (target : Fin n → Fin c → ℤ)
    (k : KArg) (metric : String) (test : Option (List (Fin n))) :
    Keeps s (fun _ => True) (predictH srt rnd sparse D target k metric test) := by
  unfold predictH
  cases sparse with
  | false =>
    refine Keeps.bind (Keeps.lift _) fun _ _ => Keeps.bind (Keeps.copy D) fun D' hD => Keeps.bind (Keeps.lift _) fun _ _ =>
      Keeps.bind (Keeps.lift _) fun _ _ => Keeps.bind (Keeps.foldlM _ _ _ fun b i => ?_) fun _ _ => Keeps.pure _ trivial
    exact Keeps.rowStep false D' hD.2 _ (fun i d hd => Keeps.storeAt d hd i _) _ i
  | true =>
    refine Keeps.bind (Keeps.lift _) fun _ _ => Keeps.bind (Keeps.pure (Q := fun _ => True) D trivial) fun D' _ =>
      Keeps.bind (Keeps.lift _) fun _ _ =>
      Keeps.bind (Keeps.lift _) fun _ _ => Keeps.bind (Keeps.foldlM _ _ _ fun b i => ?_) fun _ _ => Keeps.pure _ trivial
    exact Keeps.rowStep_sparse D' _ (fun i d hd => Keeps.storeAt d hd i _) _ i

theorem predictSampleH_keeps (srt : ArgSort (XR K)) (rnd : Rnd) {n m c s : ℕ} (D : Arr n m) (target : Fin n → Fin c → ℤ)
    (k : KArg) (metric : String) (idx : Fin m → Fin n) :
    Keeps s (fun _ => True) (predictSampleH srt rnd false D target k metric idx) := by
  unfold predictSampleH
  refine Keeps.bind (Keeps.lift _) fun _ _ => Keeps.bind (Keeps.copy D) fun D' hD => Keeps.bind (Keeps.lift _) fun _ _ =>
    Keeps.bind (Keeps.storeSamples D' hD.2 idx _) fun _ _ => Keeps.bind (Keeps.foldlM _ _ _ fun b i => ?_) fun _ _ =>
    Keeps.pure _ trivial
  exact Keeps.rowStep false D' hD.2 _ (fun i d hd => Keeps.pure _ trivial) _ i

/-- `score` changes nothing that was in memory before the call. -/
theorem C196_score (srt : ArgSort (XR K)) (o : ArgPart (XR K)) (rnd : Rnd) {n : ℕ} (sparse : Bool) (D : Arr n n)
    (target : Fin n → ℤ) (k : KArg) (metric : String) (test : Option (List ℕ)) (h : Mem (XR K)) (a : Addr) (ha : a.1 < h.next) :
    (scoreH srt o rnd sparse D target k metric test h).2.cell a = h.cell a :=
  (scoreH_keeps srt o rnd sparse D target k metric test h le_rfl).2.1 a ha

theorem C196_score_sample (srt : ArgSort (XR K)) (rnd : Rnd) {n s : ℕ} (D : Arr n s) (target : Fin n → ℤ) (k : KArg)
    (metric : String) (idx : Fin s → Fin n) (h : Mem (XR K)) (a : Addr) (ha : a.1 < h.next) :
    (scoreSampleH srt rnd D target k metric idx h).2.cell a = h.cell a :=
  (scoreSampleH_keeps srt rnd D target k metric idx h le_rfl).2.1 a ha

/-- `predict` changes nothing that was in memory before the call, unless it is called with a sparse matrix and `sample_idx`. -/
theorem C198_partial (srt : ArgSort (XR K)) (rnd : Rnd) {n c : ℕ} (sparse : Bool) (D : Arr n n) (target : Fin n → Fin c → ℤ)
    (k : KArg) (metric : String) (test : Option (List (Fin n))) (h : Mem (XR K)) (a : Addr) (ha : a.1 < h.next) :
    (predictH srt rnd sparse D target k metric test h).2.cell a = h.cell a :=
  (predictH_keeps srt rnd sparse D target k metric test h le_rfl).2.1 a ha

theorem C198_sample_partial (srt : ArgSort (XR K)) (rnd : Rnd) {n s c : ℕ} (D : Arr n s) (target : Fin n → Fin c → ℤ)
    (k : KArg) (metric : String) (idx : Fin s → Fin n) (h : Mem (XR K)) (a : Addr) (ha : a.1 < h.next) :
    (predictSampleH srt rnd false D target k metric idx h).2.cell a = h.cell a :=
  (predictSampleH_keeps srt rnd D target k metric idx h le_rfl).2.1 a ha

/-- Missing above: with a sparse matrix and `sample_idx`, `predict` overwrites the self distances in the matrix of the caller. -/
theorem C198_violated (srt : ArgSort (XR K)) (rnd : Rnd) {n s c : ℕ} (D : Arr n s) (hD : Simple D)
    (target : Fin n → Fin c → ℤ) (k : KArg) (hk : k ≠ .other) (metric : String) (hm : metric = "distance" ∨ metric = "similarity")
    (idx : Fin s → Fin n) (h : Mem (XR K)) (hlt : ∀ i j, (D i j).1 < h.next) (i : Fin n) (j : Fin s) :
    (predictSampleH srt rnd true D target k metric idx h).2.cell (D i j)
      = if i = idx j then (if metric = "distance" then .pinf else .ninf) else h.cell (D i j) := by
  obtain ⟨ks, hks⟩ : ∃ ks, k.toList = .ok ks := by
    cases k with
    | int k => exact ⟨_, rfl⟩
    | list l => exact ⟨_, rfl⟩
    | other => exact absurd rfl hk
  have hv : checkValidMetric metric = .ok () := by
    rcases hm with rfl | rfl <;> rfl
  obtain ⟨h1, e1, n1, c1, _⟩ := storeSamples_run D hD idx (dSelf metric : XR K) h
  unfold predictSampleH
  rw [hks, hv]
  show ((storeSamples D idx (dSelf metric) >>= _) h).2.cell (D i j) = _
  rw [bind_ok _ _ h h1 () e1]
  refine Eq.trans (((?_ : Keeps h1.next (fun _ => True) _) h1 le_rfl).2.1 (D i j) (by rw [n1]; exact hlt i j)) ?_
  · refine Keeps.bind (Keeps.foldlM _ _ _ fun b i => ?_) fun _ _ => Keeps.pure _ trivial
    exact Keeps.rowStep_sparse D _ (fun i d hd => Keeps.pure _ trivial) _ i
  · rw [c1]
    rfl

/-! ### The results -/

theorem foldlM_update {ι β : Type} [DecidableEq ι] (l : List ι) (g : ι → β) (R : ι → β) :
    l.foldlM (fun R i => (pure (Function.update R i (g i)) : Py (ι → β))) R = .ok fun i => if i ∈ l then g i else R i := by
  induction l generalizing R with
  | nil => simp; rfl
  | cons t l ih =>
    rw [List.foldlM_cons]
    show l.foldlM _ (Function.update R t (g t)) = _
    rw [ih]
    congr 1
    funext i
    by_cases hi : i = t
    · subst hi; simp
    · simp [hi]

theorem tally_congr {n : ℕ} (cnt : ℕ) (queries : List (Fin n)) (seed pred pred' : Fin n → ℕ) (hp : ∀ i ∈ queries, pred i = pred' i) :
    (tally cnt queries seed pred : KRes K n) = tally cnt queries seed pred' := by
  unfold tally
  refine List.foldl_ext _ _ _ fun st i hi => ?_
  rw [hp i hi]

theorem scoreRes_congr {n m : ℕ} (ks : List ℤ) (nClasses : ℕ) (queries : List (Fin n)) (nn nn' : Fin n → List (List (Fin m)))
    (seed : Fin n → ℕ) (colClass : Fin m → ℕ) (hnn : ∀ i ∈ queries, nn i = nn' i) :
    (scoreRes ks nClasses queries nn seed colClass : Res K n) = scoreRes ks nClasses queries nn' seed colClass := by
  unfold scoreRes
  have : ∀ j, (tally queries.length queries seed (fun i => vote (nClasses - 1) (((nn i).getD j []).map colClass)) : KRes K n)
      = tally queries.length queries seed (fun i => vote (nClasses - 1) (((nn' i).getD j []).map colClass)) :=
    fun j => tally_congr _ _ _ _ _ fun i hi => by rw [hnn i hi]
  simp only [this]

theorem runDense_eq (srt : ArgSort (XR K)) (rnd : Rnd) {n m : ℕ} (metric : String) (ks : List ℤ) (nClasses : ℕ)
    (queries : List (Fin n)) (row : Fin n → Fin m → XR K) (cand : List (Fin m)) (seed : Fin n → ℕ) (colClass : Fin m → ℕ) :
    runDense srt rnd metric ks nClasses queries row cand seed colClass
      = scoreRes ks nClasses queries (fun i => neighbours srt rnd metric ks cand i (row i)) seed colClass := rfl

/-- The part of `score` which works on the rows of the copy, for dense matrices. -/
theorem scoreLoop (srt : ArgSort (XR K)) (rnd : Rnd) {n : ℕ} (D : Arr n n) (hD : Simple D) (metric : String) (ks : List ℤ)
    (nClasses : ℕ) (queries cand : List (Fin n)) (seed colClass : Fin n → ℕ) (h : Mem (XR K)) (hlt : ∀ i j, (D i j).1 < h.next) :
    ((queries.foldlM (fun (R : Fin n → List (List (Fin n))) i => rowStep false D
        (fun i d => storeAt d i (dSelf metric : XR K))
        (fun i v => pure (Function.update R i (neighbours srt rnd metric ks cand i v))) i) (fun _ => []) >>= fun nn =>
      pure (scoreRes ks nClasses queries nn seed colClass : Res K n)) h).1
      = .ok (runDense srt rnd metric ks nClasses queries (fun i => Function.update (fun j => h.cell (D i j)) i (dSelf metric))
        cand seed colClass) := by
  rw [bind_pure_fst, rows_run_again false D hD _ (fun i v => Function.update v i (dSelf metric))
    (fun i d hd => RowOp.storeAt d hd i _) (fun i v => Function.update_idem _ _ _) _ queries
    (fun i j => h.cell (D i j)) (fun _ => []) h hlt (fun i => Or.inl rfl), foldlM_update, runDense_eq]
  have hnn : ∀ i ∈ queries, (if i ∈ queries then neighbours srt rnd metric ks cand i
      (Function.update (fun j => h.cell (D i j)) i (dSelf metric)) else []) = neighbours srt rnd metric ks cand i
      (Function.update (fun j => h.cell (D i j)) i (dSelf metric)) := fun i hi => if_pos hi
  have := scoreRes_congr (K := K) ks nClasses queries _ _ seed colClass hnn
  rw [← this]
  rfl

/-- `score` with its in-place operations on the rows returns (or raises) what it would if all values were immutable. -/
theorem C197_score (srt : ArgSort (XR K)) (o : ArgPart (XR K)) (rnd : Rnd) {n : ℕ} (sparse : Bool) (D : Arr n n)
    (target : Fin n → ℤ) (k : KArg) (metric : String) (test : Option (List ℕ)) (h : Mem (XR K)) :
    (scoreH srt o rnd sparse D target k metric test h).1.map (Sigma.mk n)
      = score srt o rnd (.mat sparse n n fun i j => h.cell (D i j)) (.vec n target) k metric test := by
  have hL : checkMatrixLabels (.mat sparse n n fun i j => h.cell (D i j)) (.vec n target)
      = .ok (sparse, ⟨n, fun i j => h.cell (D i j), target⟩) := by
    simp [checkMatrixLabels]
  have hmap : ∀ {β : Type} (x : Py β) (g : β → Py (Res K n)), (x >>= g).map (Sigma.mk n) = x >>= fun y => (g y).map (Sigma.mk n) := by
    intro β x g
    cases x <;> rfl
  have hend : ∀ x : Py (Res K n), x.map (Sigma.mk n) = x >>= fun r => pure ⟨n, r⟩ := by
    intro x
    cases x <;> rfl
  obtain ⟨D', h1, e1, hs, _, n1, l1, c1, _⟩ := copy_run D h
  have hc : (fun i j => h1.cell (D' i j)) = fun i j => h.cell (D i j) := by
    funext i j
    exact c1 i j
  have hc1 : ∀ i, (fun j => h1.cell (D' i j)) = fun j => h.cell (D i j) := fun i => funext (c1 i)
  unfold scoreH score
  rw [hL, lift_bind, hmap]
  show _ = (checkValidMetric metric >>= _)
  refine congrArg _ (funext fun _ => ?_)
  rw [bind_ok _ _ h h1 D' e1, lift_bind, hmap]
  refine congrArg _ (funext fun ks => ?_)
  rw [lift_bind, hmap]
  cases test with
  | none =>
    cases sparse with
    | true =>
      refine (hend (scoreSparse o rnd ks (fun i j => h1.cell (D' i j)) target (List.finRange n))).trans ?_
      rw [hc]
      rfl
    | false =>
      have := scoreLoop srt rnd D' hs metric ks (labelsOf (List.ofFn target)).length (List.finRange n) (List.finRange n)
        (fun i => encode (labelsOf (List.ofFn target)) (target i)) (fun i => encode (labelsOf (List.ofFn target)) (target i)) h1 l1
      simp only [hc1] at this
      exact congrArg (Except.map (Sigma.mk n)) this
  | some T =>
    show (toFins n T >>= _) = (toFins n T >>= _)
    refine congrArg _ (funext fun Q => ?_)
    cases sparse with
    | true =>
      refine (hend (scoreSparse o rnd ks (fun i j => h1.cell (D' i j)) target Q)).trans ?_
      rw [hc]
      rfl
    | false =>
      simp only [Bool.false_eq_true, if_false]
      rw [lift_bind, hmap]
      have hloop := fun cand => scoreLoop srt rnd D' hs metric ks (labelsOf (List.ofFn target)).length Q cand
        (fun i => encode (labelsOf (List.ofFn target)) (target i)) (fun i => encode (labelsOf (List.ofFn target)) (target i)) h1 l1
      simp only [hc1] at hloop
      unfold scoreDense
      by_cases hQ : Q.isEmpty = true
      · simp only [hQ, if_true]
        exact congrArg (Except.map (Sigma.mk n)) (hloop [])
      · simp only [hQ, if_false, Bool.false_eq_true]
        rw [bind_assoc]
        refine congrArg _ (funext fun cand => ?_)
        exact congrArg (Except.map (Sigma.mk n)) (hloop cand)

theorem C197_score_sample (srt : ArgSort (XR K)) (rnd : Rnd) {n s : ℕ} (D : Arr n s) (target : Fin n → ℤ) (k : KArg)
    (metric : String) (idx : Fin s → Fin n) (h : Mem (XR K)) :
    (scoreSampleH srt rnd D target k metric idx h).1 = (do
      checkValidMetric metric
      let ks ← k.toList
      pure (scoreSample srt rnd metric ks (fun i j => h.cell (D i j)) target idx)) := by
  obtain ⟨D', h1, e1, hs, _, n1, l1, c1, _⟩ := copy_run D h
  obtain ⟨h2, e2, n2, c2, _⟩ := storeSamples_run D' hs idx (dSelf metric : XR K) h1
  unfold scoreSampleH
  rw [lift_bind]
  refine congrArg _ (funext fun _ => ?_)
  rw [bind_ok _ _ h h1 D' e1, lift_bind]
  refine congrArg _ (funext fun ks => ?_)
  rw [bind_ok _ _ h1 h2 () e2, bind_pure_fst, rows_run_again false D' hs _ (fun i v => v)
    (fun i d hd => RowOp.pure d) (fun i v => rfl) _ (List.finRange n)
    (fun i j => h2.cell (D' i j)) (fun _ => []) h2 (fun i j => by rw [n2]; exact l1 i j) (fun i => Or.inl rfl), foldlM_update]
  have hrow : (fun i j => h2.cell (D' i j)) = fun i j => if i = idx j then (dSelf metric : XR K) else h.cell (D i j) := by
    funext i j
    rw [c2, c1]
  have hnn : (fun i : Fin n => if i ∈ List.finRange n then neighbours srt rnd metric ks (List.finRange s) i.val
      (fun j => h2.cell (D' i j)) else []) = fun i => neighbours srt rnd metric ks (List.finRange s) i.val
      (fun j => if i = idx j then (dSelf metric : XR K) else h.cell (D i j)) := by
    funext i
    rw [if_pos (List.mem_finRange i)]
    exact congrArg _ (congrFun hrow i)
  show (pure (scoreRes ks _ _ (fun i : Fin n => if i ∈ List.finRange n then neighbours srt rnd metric ks (List.finRange s) i.val
      (fun j => h2.cell (D' i j)) else []) _ _) : Py (Res K n)) = _
  rw [hnn]
  rfl

theorem foldlM_update_or_throw {ι β : Type} [DecidableEq ι] (l : List ι) (P : ι → Prop) [DecidablePred P] (x : PyErr)
    (g : ι → β) (R : ι → β) :
    l.foldlM (fun R i => if P i then throw x else (pure (Function.update R i (g i)) : Py (ι → β))) R
      = if ∃ i ∈ l, P i then .error x else .ok fun i => if i ∈ l then g i else R i := by
  induction l generalizing R with
  | nil => simp; rfl
  | cons t l ih =>
    rw [List.foldlM_cons]
    by_cases ht : P t
    · rw [if_pos ht, if_pos ⟨t, List.mem_cons_self, ht⟩]
      rfl
    · rw [if_neg ht]
      show l.foldlM _ (Function.update R t (g t)) = _
      rw [ih]
      have : (∃ i ∈ l, P i) ↔ ∃ i ∈ t :: l, P i := by simp [ht]
      by_cases hl : ∃ i ∈ l, P i
      · rw [if_pos hl, if_pos (this.1 hl)]
      · rw [if_neg hl, if_neg fun e => hl (this.2 e)]
        congr 1
        funext i
        by_cases hi : i = t
        · subst hi; simp
        · simp [hi]

/-- `predict` with its in-place operations on the rows returns (or raises) what it would if all values were immutable. -/
theorem C197_predict (srt : ArgSort (XR K)) (rnd : Rnd) {n c : ℕ} (sparse : Bool) (D : Arr n n) (hD : Simple D)
    (target : Fin n → Fin c → ℤ) (k : KArg) (metric : String) (test : Option (List (Fin n))) (h : Mem (XR K))
    (hlt : ∀ i j, (D i j).1 < h.next) :
    (predictH srt rnd sparse D target k metric test h).1
      = predict srt rnd (fun i j => h.cell (D i j)) target k metric test := by
  obtain ⟨D', h1, e1, hs, l1, c1⟩ : ∃ (D' : Arr n n) (h1 : Mem (XR K)),
      (copyDense sparse D : M (XR K) (Arr n n)) h = (.ok D', h1) ∧ Simple D' ∧ (∀ i j, (D' i j).1 < h1.next) ∧
      ∀ i j, h1.cell (D' i j) = h.cell (D i j) := by
    cases sparse with
    | true => exact ⟨D, h, rfl, hD, hlt, fun _ _ => rfl⟩
    | false =>
      obtain ⟨D', h1, e1, hs, _, n1, l1, c1, _⟩ := copy_run D h
      exact ⟨D', h1, e1, hs, l1, c1⟩
  unfold predictH predict
  rw [dif_pos rfl, lift_bind]
  refine congrArg _ (funext fun _ => ?_)
  rw [bind_ok _ _ h h1 D' e1, lift_bind]
  by_cases ht : test.isSome = true
  · rw [if_pos ht, if_pos ht]
    rfl
  rw [if_neg ht, if_neg ht]
  show ((lift k.toList >>= _ : M (XR K) _) h1).1 = (k.toList >>= _)
  rw [lift_bind]
  refine congrArg _ (funext fun ks => ?_)
  rw [bind_pure_fst, rows_run_again sparse D' hs _ (fun i v => Function.update v i (dSelf metric))
    (fun i d hd => RowOp.storeAt d hd i _) (fun i v => Function.update_idem _ _ _) _ (List.finRange n)
    (fun i j => h.cell (D i j)) (fun _ => []) h1 l1 (fun i => Or.inl (funext (c1 i)))]
  rw [foldlM_update_or_throw]
  have hiff : (∃ i ∈ List.finRange n, 0 < c ∧ (neighbours srt rnd metric ks (List.finRange n) i.val
      (Function.update (fun j => h.cell (D i j)) i (dSelf metric))).any List.isEmpty = true) ↔
      (0 < c ∧ ((List.finRange n).any fun i => (neighbours srt rnd metric ks (List.finRange n) i.val
      (Function.update (fun j => h.cell (D i j)) i (dSelf metric))).any List.isEmpty) = true) := by
    rw [List.any_eq_true]
    constructor
    · rintro ⟨i, hi, hc, hn⟩
      exact ⟨hc, i, hi, hn⟩
    · rintro ⟨hc, i, hi, hn⟩
      exact ⟨i, hi, hc, hn⟩
  by_cases hne : 0 < c ∧ ((List.finRange n).any fun i => (neighbours srt rnd metric ks (List.finRange n) i.val
      (Function.update (fun j => h.cell (D i j)) i (dSelf metric))).any List.isEmpty) = true
  · rw [if_pos (hiff.2 hne)]
    exact (if_pos hne).symm
  · rw [if_neg fun e => hne (hiff.1 e)]
    refine Eq.trans ?_ (if_neg hne).symm
    have hnn : (fun i : Fin n => if i ∈ List.finRange n then neighbours srt rnd metric ks (List.finRange n) i.val
        (Function.update (fun j => h.cell (D i j)) i (dSelf metric)) else []) = fun i => neighbours srt rnd metric ks
        (List.finRange n) i.val (Function.update (fun j => h.cell (D i j)) i (dSelf metric)) :=
      funext fun i => if_pos (List.mem_finRange i)
    rw [hnn]
    rfl

end HubToolbox.Heap
