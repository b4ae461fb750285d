import Verif.Knn.StoredModel
import Verif.Knn.RPrecisionProps

/-!
# Storage of csr matrices in k-NN classification and R-precision
-/

set_option autoImplicit false

namespace HubToolbox.Spec

variable {K : Type}

/-- The rows store the matrix `S`: no column twice, the stored values are those of `S`, and what is not stored is zero. -/
def StoresX [Zero K] {n : ℕ} (rows : Fin n → List (Fin n × XR K)) (S : Fin n → Fin n → XR K) : Prop :=
  ∀ i, ((rows i).map Prod.fst).Nodup ∧ (∀ e ∈ rows i, S i e.1 = e.2) ∧ ∀ j, j ∉ (rows i).map Prod.fst → S i j = .fin 0

/-- No zero is stored. -/
def NoStoredZeros [Zero K] {n : ℕ} (rows : Fin n → List (Fin n × XR K)) : Prop := ∀ i, ∀ e ∈ rows i, e.2 ≠ .fin 0

end HubToolbox.Spec

namespace HubToolbox.Knn

open Spec

variable {K : Type} [Field K] [LinearOrder K] {n : ℕ}

omit [Field K] in
theorem partOrder_cast (o : ArgPart (XR K)) {L L' : ℕ} (h : L' = L) (d2 : Fin (L + 1) → XR K) (ks : List ℤ) :
    (partOrder o L' (fun p => d2 (Fin.cast (by rw [h]) p)) ks).map (Fin.cast (by rw [h])) = partOrder o L d2 ks := by
  subst h
  simp

omit [Field K] in
theorem sparseOrder_eq (o : ArgPart (XR K)) {m : ℕ} (row : Fin m → XR K) (ks : List ℤ) (x : Fin m) (t : List (Fin m)) :
    sparseOrder o row ks (x :: t) = ((partOrder o t.length (fun p => row ((x :: t).get p)) ks).map (x :: t).get).tail := rfl

omit [Field K] in
/-- Order of a shuffled list of columns, computed from the positions. -/
theorem sparseOrder_map (o : ArgPart (XR K)) {m l : ℕ} (row : Fin m → XR K) (f : Fin l → Fin m) (ks : List ℤ) (x : Fin l) (t : List (Fin l)) :
    sparseOrder o row ks ((x :: t).map f)
      = ((partOrder o t.length (fun p => row (f ((x :: t).get p))) ks).map (fun p => f ((x :: t).get p))).tail := by
  rw [List.map_cons, sparseOrder_eq]
  congr 1
  have hlen : (t.map f).length = t.length := List.length_map _
  have hget : ∀ p : Fin ((t.map f).length + 1), (f x :: t.map f).get p = f ((x :: t).get (Fin.cast (by rw [hlen, List.length_cons]) p)) := by
    intro p
    have := List.getElem_map f (l := x :: t) (i := p.val) (h := by simpa using p.isLt)
    simpa using this
  have h := partOrder_cast o hlen (fun p => row (f ((x :: t).get p))) ks
  rw [← h, List.map_map]
  have e1 : (fun p : Fin ((t.map f).length + 1) => row ((f x :: t.map f).get p))
      = fun p => row (f ((x :: t).get (Fin.cast (by rw [hlen, List.length_cons]) p))) := funext fun p => by rw [hget]
  rw [e1]
  refine List.map_congr_left (fun p _ => ?_)
  rw [hget]
  rfl

omit [Field K] in
theorem mem_partOrder (o : ArgPart (XR K)) (L : ℕ) (d2 : Fin (L + 1) → XR K) (ks : List ℤ) (p : Fin (L + 1)) (hp : d2 p ≠ .nan) :
    p ∈ partOrder o L d2 ks := by
  unfold partOrder
  simp only [List.mem_reverse, List.mem_filter, List.mem_map, List.mem_finRange, true_and, decide_eq_true_eq]
  exact ⟨⟨_, Equiv.apply_symm_apply _ p⟩, hp⟩

theorem mapM_ok {α β : Type} (f : α → Py β) (g : α → β) (l : List α) (h : ∀ a ∈ l, f a = .ok (g a)) : l.mapM f = .ok (l.map g) := by
  induction l with
  | nil => rfl
  | cons a l ih =>
    rw [List.mapM_cons, h a (by simp), ih (fun b hb => h b (by simp [hb]))]
    rfl

theorem mapM_error {α β : Type} (f : α → Py β) (e : PyErr) (l : List α) (hall : ∀ a ∈ l, (∃ b, f a = .ok b) ∨ f a = .error e)
    (h : ∃ a ∈ l, f a = .error e) : l.mapM f = .error e := by
  induction l with
  | nil => obtain ⟨a, ha, -⟩ := h; exact absurd ha (List.not_mem_nil)
  | cons a l ih =>
    rw [List.mapM_cons]
    rcases hall a (by simp) with ⟨b, hb⟩ | hb
    · have : l.mapM f = .error e := by
        refine ih (fun c hc => hall c (by simp [hc])) ?_
        obtain ⟨c, hc, hce⟩ := h
        rcases List.mem_cons.1 hc with rfl | hc
        · rw [hb] at hce; cases hce
        · exact ⟨c, hc, hce⟩
      rw [hb, this]
      rfl
    · rw [hb]; rfl

theorem mapM_cases {α β : Type} (f : α → Py β) (e : PyErr) (l : List α) (hall : ∀ a ∈ l, (∃ b, f a = .ok b) ∨ f a = .error e) :
    (∃ r, l.mapM f = .ok r) ∨ l.mapM f = .error e := by
  by_cases h : ∃ a ∈ l, f a = .error e
  · exact .inr (mapM_error f e l hall h)
  · left
    push Not at h
    induction l with
    | nil => exact ⟨[], rfl⟩
    | cons a l ih =>
      obtain ⟨b, hb⟩ := (hall a (by simp)).resolve_right (h a (by simp))
      obtain ⟨r, hr⟩ := ih (fun c hc => hall c (by simp [hc])) (fun c hc => h c (by simp [hc]))
      exact ⟨b :: r, by rw [List.mapM_cons, hb, hr]; rfl⟩

theorem colAt_cases (cols : List (Fin n)) (p : ℕ) : (∃ c, colAt cols p = .ok c) ∨ colAt cols p = .error .indexError := by
  unfold colAt
  cases cols[p]? with
  | none => exact .inr rfl
  | some c => exact .inl ⟨c, rfl⟩

/-- The only error of a query is `IndexError`. -/
theorem storedOrder_cases (o : ArgPart (XR K)) (row : List (Fin n × XR K)) (ks : List ℤ) (rp : List (Fin row.length)) :
    (∃ l, storedOrder o row ks rp = .ok l) ∨ storedOrder o row ks rp = .error .indexError := by
  cases rp with
  | nil => exact .inl ⟨[], rfl⟩
  | cons x t =>
    unfold storedOrder
    have := mapM_cases (fun p : Fin row.length => colAt (nonzeroCols row) p.val) .indexError
      ((partOrder o t.length (fun p => (row.get ((x :: t).get p)).2) ks).map (x :: t).get)
      (fun a _ => colAt_cases _ _)
    rcases this with ⟨r, hr⟩ | hr
    · left; exact ⟨r.tail, by simp only [hr]; rfl⟩
    · right; simp only [hr]; rfl

/-- With a stored zero and without NaN the last position is out of bounds. -/
theorem storedOrder_error (o : ArgPart (XR K)) (row : List (Fin n × XR K)) (ks : List ℤ) (rp : List (Fin row.length))
    (hrp : rp.Perm (List.finRange row.length)) (h0 : ∃ e ∈ row, e.2 = .fin 0) (hnan : ∀ e ∈ row, e.2 ≠ .nan) :
    storedOrder o row ks rp = .error .indexError := by
  obtain ⟨e, he, he0⟩ := h0
  have hpos : 0 < row.length := List.length_pos_of_mem he
  have hlt : (nonzeroCols row).length < row.length := by
    unfold nonzeroCols
    rw [List.length_map]
    refine lt_of_le_of_ne (List.length_filter_le _ _) (fun hc => ?_)
    rw [List.length_filter_eq_length_iff] at hc
    have := hc e he
    simp [he0] at this
  have hmem : (⟨row.length - 1, by omega⟩ : Fin row.length) ∈ rp := hrp.mem_iff.2 (List.mem_finRange _)
  cases rp with
  | nil => exact absurd hmem (List.not_mem_nil)
  | cons x t =>
    unfold storedOrder
    obtain ⟨q, hq⟩ := List.get_of_mem hmem
    have := mapM_error (fun p : Fin row.length => colAt (nonzeroCols row) p.val) .indexError
      ((partOrder o t.length (fun p => (row.get ((x :: t).get p)).2) ks).map (x :: t).get)
      (fun a _ => colAt_cases _ _)
      ⟨⟨row.length - 1, by omega⟩, List.mem_map.2 ⟨q, mem_partOrder o _ _ _ _ (hnan _ (List.get_mem _ _)), hq⟩, by
        have : (nonzeroCols row)[row.length - 1]? = none := List.getElem?_eq_none (by omega)
        unfold colAt
        simp only [this]⟩
    simp only [this]
    rfl

theorem nonzeroCols_eq (row : List (Fin n × XR K)) (h0 : ∀ e ∈ row, e.2 ≠ .fin 0) : nonzeroCols row = row.map Prod.fst := by
  unfold nonzeroCols
  rw [List.filter_eq_self.2 (fun e he => by simpa using h0 e he)]

/-- Without stored zeros the columns are found. -/
theorem storedOrder_ok (o : ArgPart (XR K)) (row : List (Fin n × XR K)) (S : Fin n → XR K) (ks : List ℤ) (rp : List (Fin row.length))
    (h0 : ∀ e ∈ row, e.2 ≠ .fin 0) (hS : ∀ e ∈ row, S e.1 = e.2) :
    storedOrder o row ks rp = .ok (sparseOrder o S ks (rp.map (fun p => (row.get p).1))) := by
  cases rp with
  | nil => rfl
  | cons x t =>
    rw [sparseOrder_map]
    unfold storedOrder
    have hv : (fun p : Fin (t.length + 1) => S (row.get ((x :: t).get p)).1) = fun p => (row.get ((x :: t).get p)).2 :=
      funext fun p => hS _ (List.get_mem _ _)
    rw [hv]
    have := mapM_ok (fun p : Fin row.length => colAt (nonzeroCols row) p.val) (fun p => (row.get p).1)
      ((partOrder o t.length (fun p => (row.get ((x :: t).get p)).2) ks).map (x :: t).get)
      (fun p _ => by
        have : (nonzeroCols row)[p.val]? = some (row.get p).1 := by
          rw [nonzeroCols_eq row h0, List.getElem?_map, List.getElem?_eq_getElem p.isLt]
          rfl
        unfold colAt
        simp only [this])
    simp only [this, List.map_map]
    rfl

/-- What is read from the csr matrix. -/
theorem valueAt_eq {rows : CsrRows n K} {S : Fin n → Fin n → XR K} (h : StoresX rows S) (i j : Fin n) : valueAt (rows i) j = S i j := by
  unfold valueAt
  cases hf : (rows i).find? (fun e => decide (e.1 = j)) with
  | none =>
    rw [List.find?_eq_none] at hf
    refine ((h i).2.2 j (fun hj => ?_)).symm
    obtain ⟨e, he, rfl⟩ := List.mem_map.1 hj
    exact hf e he (by simp)
  | some e =>
    have he := List.mem_of_find?_eq_some hf
    have hj : e.1 = j := by simpa using List.find?_some hf
    rw [← hj]
    exact ((h i).2.1 e he).symm

/-- The columns found by a shuffle of the positions are a shuffle of the columns. -/
theorem cols_perm {rows : CsrRows n K} {S : Fin n → Fin n → XR K} (h : StoresX rows S) (h0 : NoStoredZeros rows) (i : Fin n)
    (rp : List (Fin (rows i).length)) (hrp : rp.Perm (List.finRange (rows i).length)) :
    (rp.map (fun p => ((rows i).get p).1)).Perm (storedCols (S i)) := by
  have e1 : (List.finRange (rows i).length).map (fun p => ((rows i).get p).1) = (rows i).map Prod.fst := by
    refine List.ext_getElem (by simp) (fun k h1 h2 => ?_)
    simp
  refine (hrp.map _).trans ?_
  rw [e1]
  refine (List.perm_ext_iff_of_nodup (h i).1 ((List.nodup_finRange n).filter _)).2 (fun j => ?_)
  simp only [List.mem_filter, List.mem_finRange, true_and, decide_eq_true_eq]
  constructor
  · intro hj
    obtain ⟨e, he, rfl⟩ := List.mem_map.1 hj
    rw [(h i).2.1 e he]
    exact h0 i e he
  · intro hj
    by_contra hc
    exact hj ((h i).2.2 j hc)

open Classical in
/-- The generator which draws given permutations. -/
noncomputable def Rnd.drawing (rnd : Rnd) (g : Fin n → List (Fin n)) : Rnd where
  first {m} i l := if h : ∃ (hm : n = m) (hi : i < n), ((g ⟨i, hi⟩).map (Fin.cast hm)).Perm l then
      (g ⟨i, h.choose_spec.choose⟩).map (Fin.cast h.choose) else rnd.first i l
  again := rnd.again
  first_perm {m} i l := by
    split_ifs with h
    · exact h.choose_spec.choose_spec
    · exact rnd.first_perm i l
  again_perm := rnd.again_perm

theorem Rnd.drawing_first (rnd : Rnd) (g : Fin n → List (Fin n)) (i : Fin n) (l : List (Fin n)) (h : (g i).Perm l) :
    (rnd.drawing g).first i.val l = g i := by
  have hx : ∃ (hm : n = n) (hi : i.val < n), ((g ⟨i.val, hi⟩).map (Fin.cast hm)).Perm l := ⟨rfl, i.isLt, by simpa using h⟩
  show (if h : ∃ (hm : n = n) (hi : i.val < n), ((g ⟨i.val, hi⟩).map (Fin.cast hm)).Perm l then
      (g ⟨i.val, h.choose_spec.choose⟩).map (Fin.cast h.choose) else rnd.first i.val l) = g i
  rw [dif_pos hx]
  simp

/-- The shuffled columns. -/
def drawn (rnd : Rnd) (rows : CsrRows n K) (i : Fin n) : List (Fin n) :=
  (rnd.first i.val (List.finRange (rows i).length)).map (fun p => ((rows i).get p).1)

theorem drawing_order (o : ArgPart (XR K)) (rnd : Rnd) {rows : CsrRows n K} {S : Fin n → Fin n → XR K} (h : StoresX rows S)
    (h0 : NoStoredZeros rows) (ks : List ℤ) (i : Fin n) :
    storedOrder o (rows i) ks (rnd.first i.val (List.finRange (rows i).length))
      = .ok (sparseOrder o (S i) ks ((rnd.drawing (drawn rnd rows)).first i.val (storedCols (S i)))) := by
  rw [Rnd.drawing_first _ _ _ _ (cols_perm h h0 i _ (rnd.first_perm _ _)), storedOrder_ok o (rows i) (S i) ks _ (h0 i) (h i).2.1]
  rfl

/-- **C265, k-NN classification without stored zeros.** The results are those of the matrix which is stored, whatever the order of storage: with
the random numbers drawn for the stored entries, or with others the result of `score` on the matrix (for which C42, C43, C56 hold). -/
theorem C265_score_partial (o : ArgPart (XR K)) (rnd : Rnd) {rows : CsrRows n K} {S : Fin n → Fin n → XR K} (h : StoresX rows S)
    (h0 : NoStoredZeros rows) (ks : List ℤ) (y : Fin n → ℤ) (queries : List (Fin n)) :
    ∃ rnd' : Rnd, scoreStored o rnd ks rows y queries = scoreSparse o rnd' ks S y queries := by
  refine ⟨rnd.drawing (drawn rnd rows), ?_⟩
  unfold scoreStored scoreSparse
  by_cases hn : n = 0
  · simp only [hn, if_true]; rfl
  · simp only [hn, if_false]
    have hm := mapM_ok (fun i : Fin n => storedOrder o (rows i) ks (rnd.first i.val (List.finRange (rows i).length)))
      (fun i => sparseOrder o (S i) ks ((rnd.drawing (drawn rnd rows)).first i.val (storedCols (S i)))) queries
      (fun i _ => drawing_order o rnd h h0 ks i)
    have hval : ∀ i, valueAt (rows i) = S i := fun i => funext fun j => valueAt_eq h i j
    rw [hm]
    simp only [drawing_order o rnd h h0, hval]
    rfl

/-- **C265, stored zeros.** An explicitly stored zero in a row which is evaluated (and has no NaN) makes `score` raise `IndexError`. -/
theorem C265_score_error (o : ArgPart (XR K)) (rnd : Rnd) (rows : CsrRows n K) (ks : List ℤ) (y : Fin n → ℤ) (queries : List (Fin n)) (i : Fin n)
    (hi : i ∈ queries) (h0 : ∃ e ∈ rows i, e.2 = .fin 0) (hnan : ∀ e ∈ rows i, e.2 ≠ .nan) :
    scoreStored o rnd ks rows y queries = .error .indexError := by
  unfold scoreStored
  have hn : n ≠ 0 := by rintro rfl; exact i.elim0
  have hm := mapM_error (fun i : Fin n => storedOrder o (rows i) ks (rnd.first i.val (List.finRange (rows i).length))) .indexError queries
    (fun a _ => storedOrder_cases o _ ks _) ⟨i, hi, storedOrder_error o _ ks _ (rnd.first_perm _ _) h0 hnan⟩
  simp only [hn, if_false, hm]
  rfl

theorem rStored_eq (o : ArgPart (XR K)) (rnd : Rnd) {rows : CsrRows n K} {S : Fin n → Fin n → XR K} (h : StoresX rows S)
    (h0 : NoStoredZeros rows) (R : ℕ) (i : Fin n) :
    rStored o rnd rows R i = .ok (rNeighbours o (rnd.drawing (drawn rnd rows)) S R i) := by
  unfold rStored rNeighbours
  have hval : valueAt (rows i) = S i := funext fun j => valueAt_eq h i j
  rw [drawing_order o rnd h h0, hval]
  rfl

theorem rWorkerStored_eq (o : ArgPart (XR K)) (rnd : Rnd) {rows : CsrRows n K} {S : Fin n → Fin n → XR K} (h : StoresX rows S)
    (h0 : NoStoredZeros rows) (y : Fin n → ℤ) (w : ℕ) (i : Fin n) :
    rWorkerStored o rnd rows y w i = .ok (rWorker o (rnd.drawing (drawn rnd rows)) S y w i) := by
  unfold rWorkerStored rWorker
  by_cases hR : relevant y i = 0
  · simp only [hR, if_true]; rfl
  · simp only [hR, if_false, rStored_eq o rnd h h0]
    by_cases hc : ((rNeighbours o (rnd.drawing (drawn rnd rows)) S (relevant y i) i).map y).countP (fun v => decide (v = y i)) = 0
    · simp only [hc, if_true, bind, Except.bind]; rfl
    · simp only [hc, if_false, bind, Except.bind]; rfl

/-- **C265, R-precision without stored zeros.** -/
theorem C265_rprec_partial (o : ArgPart (XR K)) (rnd : Rnd) {rows : CsrRows n K} {S : Fin n → Fin n → XR K} (h : StoresX rows S)
    (h0 : NoStoredZeros rows) (y : Fin n → ℤ) (w : ℕ) :
    ∃ rnd' : Rnd, (rPrecisionStored o rnd rows y w).map (fun r => (⟨n, r⟩ : Σ n, RRes K n w))
      = rPrecision o rnd' (.mat true n n S) (.vec n y) "similarity" w := by
  refine ⟨rnd.drawing (drawn rnd rows), ?_⟩
  have hm := mapM_ok (rWorkerStored o rnd rows y w) (rWorker o (rnd.drawing (drawn rnd rows)) S y w) (List.finRange n)
    (fun i _ => rWorkerStored_eq o rnd h h0 y w i)
  unfold rPrecisionStored rPrecision
  rw [hm]
  simp only [rWorkerStored_eq o rnd h h0, checkMatrixLabels, checkValidMetric]
  by_cases hw : ((List.finRange n).map (relevant y)).sum = 0
  · simp [hw, bind, Except.bind, Except.map, pure, Except.pure, throw, throwThe, MonadExceptOf.throw]
  · simp [hw, bind, Except.bind, Except.map, pure, Except.pure, getOk]

/-- **C265, stored zeros in R-precision.** -/
theorem C265_rprec_error (o : ArgPart (XR K)) (rnd : Rnd) (rows : CsrRows n K) (y : Fin n → ℤ) (w : ℕ) (i : Fin n) (hR : relevant y i ≠ 0)
    (h0 : ∃ e ∈ rows i, e.2 = .fin 0) (hnan : ∀ e ∈ rows i, e.2 ≠ .nan) : rPrecisionStored o rnd rows y w = .error .indexError := by
  have hcase : ∀ a, (∃ b, rWorkerStored o rnd rows y w a = .ok b) ∨ rWorkerStored o rnd rows y w a = .error .indexError := by
    intro a
    unfold rWorkerStored
    by_cases ha : relevant y a = 0
    · left; simp only [ha, if_true]; exact ⟨_, rfl⟩
    · simp only [ha, if_false]
      unfold rStored
      rcases storedOrder_cases o (rows a) [(relevant y a : ℤ)] (rnd.first a.val (List.finRange (rows a).length)) with ⟨l, hl⟩ | hl
      · left
        simp only [hl, bind, Except.bind, pure, Except.pure]
        split_ifs <;> exact ⟨_, rfl⟩
      · right; simp only [hl]; rfl
  have herr : rWorkerStored o rnd rows y w i = .error .indexError := by
    unfold rWorkerStored rStored
    simp only [hR, if_false, storedOrder_error o (rows i) _ _ (rnd.first_perm _ _) h0 hnan]
    rfl
  unfold rPrecisionStored
  simp only [mapM_error _ .indexError _ (fun a _ => hcase a) ⟨i, List.mem_finRange i, herr⟩]
  rfl

/-! ### A violation: the same matrix with and without a stored zero -/

/-- A similarity matrix of three objects. -/
def exSim : Fin 3 → Fin 3 → XR ℚ := ![![.fin 1, .fin (1/2), .fin 0], ![.fin (1/2), .fin 1, .fin (1/5)], ![.fin 0, .fin (1/5), .fin 1]]

/-- Only non-zero values are stored. -/
def exSimRows : CsrRows 3 ℚ := ![[(0, .fin 1), (1, .fin (1/2))], [(2, .fin (1/5)), (0, .fin (1/2)), (1, .fin 1)], [(1, .fin (1/5)), (2, .fin 1)]]

/-- One zero is stored. -/
def exSimZero : CsrRows 3 ℚ :=
  ![[(0, .fin 1), (1, .fin (1/2)), (2, .fin 0)], [(2, .fin (1/5)), (0, .fin (1/2)), (1, .fin 1)], [(1, .fin (1/5)), (2, .fin 1)]]

/-- **C265 is violated.** Two csr matrices with the same content: with one of them `score` and `r_precision` return, with the other they raise
`IndexError`, whatever the labels are. -/
theorem C265_violated : StoresX exSimRows exSim ∧ StoresX exSimZero exSim ∧ NoStoredZeros exSimRows ∧
    ∀ (o : ArgPart (XR ℚ)) (rnd : Rnd) (ks : List ℤ) (y : Fin 3 → ℤ),
      (∃ r, scoreStored o rnd ks exSimRows y (List.finRange 3) = .ok r) ∧
      scoreStored o rnd ks exSimZero y (List.finRange 3) = .error .indexError ∧
      (y 0 = y 1 → (∃ r, rPrecisionStored o rnd exSimRows y 1 = .ok r) ∧ rPrecisionStored o rnd exSimZero y 1 = .error .indexError) := by
  have hs : StoresX exSimRows exSim := by unfold StoresX; decide +kernel
  have h0 : NoStoredZeros exSimRows := by unfold NoStoredZeros; decide +kernel
  have hz : ∃ e ∈ exSimZero 0, e.2 = .fin 0 := by decide +kernel
  have hnan : ∀ e ∈ exSimZero 0, e.2 ≠ .nan := by decide +kernel
  refine ⟨hs, by unfold StoresX; decide +kernel, h0, fun o rnd ks y => ⟨?_, ?_, fun hy => ?_⟩⟩
  · obtain ⟨rnd', hr⟩ := C265_score_partial o rnd hs h0 ks y (List.finRange 3)
    rw [hr]
    exact ⟨_, rfl⟩
  · exact C265_score_error o rnd exSimZero ks y _ 0 (by simp) hz hnan
  · have hR : relevant y 0 ≠ 0 := by
      unfold relevant
      have : (List.finRange 3).countP (fun j => decide (y j = y 0)) ≥ 2 := by
        simp [List.finRange, List.countP_cons, hy]
      omega
    refine ⟨?_, C265_rprec_error o rnd exSimZero y 1 0 hR hz hnan⟩
    have hm := mapM_ok (rWorkerStored o rnd exSimRows y 1) (rWorker o (rnd.drawing (drawn rnd exSimRows)) exSim y 1) (List.finRange 3)
      (fun i _ => rWorkerStored_eq o rnd hs h0 y 1 i)
    have hw : ((List.finRange 3).map (relevant y)).sum ≠ 0 := by
      intro hc
      rw [List.sum_eq_zero_iff] at hc
      exact hR (hc _ (List.mem_map.2 ⟨0, by simp, rfl⟩))
    unfold rPrecisionStored
    rw [hm]
    simp only [hw, if_false]
    exact ⟨_, rfl⟩

end HubToolbox.Knn
