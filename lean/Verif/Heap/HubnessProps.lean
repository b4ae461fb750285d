import Verif.Heap.Hubness
import Mathlib.Algebra.Order.Ring.Rat

/-!
# `hubness` leaves its argument alone, and its in-place operations compute what they should
-/

set_option autoImplicit false

namespace HubToolbox.Heap

open HubToolbox HubToolbox.Hubness

variable {K : Type} [LinearOrder K] [Zero K]

theorem prepareH_keeps {n m s : ℕ} (sparse : Bool) (dself : XR K) (D : Arr n m) (hD : Fresh s D) :
    Keeps s (fun _ => True) (prepareH sparse dself D) := by
  unfold prepareH
  refine Keeps.ite (Keeps.pure () trivial) ?_
  split
  · exact Keeps.bind (Keeps.modify D hD _) fun _ _ => Keeps.modify D hD _
  · exact Keeps.modify D hD _

theorem rowChange_keeps {n m s : ℕ} (metric : String) (dself : XR K) (i : Fin n) (d : Fin m → Addr) (hd : ∀ j, s ≤ (d j).1) :
    Keeps s (fun _ => True) (rowChange metric dself i d) := by
  unfold rowChange
  split
  · exact Keeps.bind (Keeps.storeAt d hd _ _) fun _ _ => Keeps.modifyV d hd _
  · split
    · exact Keeps.bind (Keeps.modifyV d hd _) fun _ _ => Keeps.modifyV d hd _
    · exact Keeps.modifyV d hd _

/-- `prepareH` turns the numbers `V` into `prepare V`. -/
theorem prepareH_run {n m : ℕ} (sparse : Bool) (dself : XR K) (D : Arr n m) (hD : Simple D) (h : Mem (XR K)) :
    ∃ h', prepareH sparse dself D h = (.ok (), h') ∧ h'.next = h.next ∧
      ∀ i j, h'.cell (D i j) = prepare sparse dself (fun i j => h.cell (D i j)) i j := by
  unfold prepareH prepare
  cases sparse with
  | true => exact ⟨h, rfl, rfl, fun _ _ => rfl⟩
  | false =>
    simp only [Bool.false_eq_true, if_false]
    split
    · obtain ⟨h1, e1, n1, c1, _⟩ := modify_run D hD (fun V => Np.fillDiagonal V dself) h
      obtain ⟨h2, e2, n2, c2, _⟩ := modify_run D hD (fun V i => Np.replaceNonFinite (V i) dself) h1
      refine ⟨h2, by rw [bind_ok _ _ h h1 () e1, e2], n2.trans n1, fun i j => ?_⟩
      rw [c2]
      congr 1
      funext j
      exact c1 i j
    · obtain ⟨h2, e2, n2, c2, _⟩ := modify_run D hD (fun V i => Np.replaceNonFinite (V i) dself) h
      exact ⟨h2, e2, n2, fun i j => c2 i j⟩

/-- `rowChange` turns the numbers of the row into `rowValues`. -/
theorem rowChange_rowOp {n m : ℕ} (metric : String) (dself : XR K) (i : Fin n) (d : Fin m → Addr)
    (hd : Function.Injective d) :
    RowOp d (fun v => rowValues metric dself (fun _ : Fin n => v) i) (rowChange metric dself i d) := by
  unfold rowChange
  split
  · rename_i hnm
    subst hnm
    have := (RowOp.storeAt d hd i dself).seq (RowOp.modifyV d hd (fun v => Np.replaceNonFinite v dself))
    have e : (fun v : Fin n → XR K => Np.replaceNonFinite (Function.update v i dself) dself)
        = fun v => rowValues metric dself (fun _ : Fin n => v) i := by
      funext v
      unfold rowValues
      simp only [if_true]
      congr 1
      funext j
      by_cases hj : j = i
      · subst hj; simp
      · rw [Function.update_of_ne hj, if_neg fun e => hj (Fin.ext e)]
    rw [e] at this
    exact this
  · rename_i hnm
    split
    · rename_i hm
      have := (RowOp.modifyV d hd (fun v j => if v j = .fin 0 then dself else v j)).seq
        (RowOp.modifyV d hd (fun v => Np.replaceNonFinite v dself))
      have e : (fun v : Fin m → XR K => Np.replaceNonFinite (fun j => if v j = .fin 0 then dself else v j) dself)
          = fun v => rowValues metric dself (fun _ : Fin n => v) i := by
        funext v
        unfold rowValues
        simp only [if_neg hnm, if_pos hm]
      rw [e] at this
      exact this
    · rename_i hm
      have e : (fun v : Fin m → XR K => Np.replaceNonFinite v dself)
          = fun v => rowValues metric dself (fun _ : Fin n => v) i := by
        funext v
        unfold rowValues
        simp only [if_neg hnm, if_neg hm]
      rw [← e]
      exact RowOp.modifyV d hd _

theorem serialH_keeps (o : ArgPart (XR K)) (rnd : Rnd) {n m s : ℕ} (sparse : Bool) (D : Arr n m) (k : ℤ) (metric : String)
    (shuffle : Bool) : Keeps s (fun _ => True) (serialH o rnd sparse D k metric shuffle) := by
  unfold serialH
  refine Keeps.bind (Keeps.lift _) fun _ _ => Keeps.bind (Keeps.copy D) fun D' hD => Keeps.bind (Keeps.lift _) fun _ _ =>
    Keeps.bind (prepareH_keeps _ _ D' hD.2) fun _ _ => Keeps.bind (Keeps.foldlM _ _ _ fun b i => ?_) fun _ _ =>
    Keeps.pure _ trivial
  exact Keeps.rowStep sparse D' hD.2 _ (rowChange_keeps metric _) _ i

theorem parallelH_keeps (o : ArgPart (XR K)) (rnd : Rnd) (sched : Schedule) {n m s : ℕ} (w : Workers n) (sparse : Bool)
    (D : Arr n m) (k : ℤ) (metric : String) (nJobs : ℤ) (shuffle : Bool) :
    Keeps s (fun _ => True) (parallelH o rnd sched w sparse D k metric nJobs shuffle) := by
  unfold parallelH
  refine Keeps.bind (Keeps.lift _) fun _ _ => Keeps.bind (Keeps.lift _) fun _ _ => Keeps.bind (Keeps.copy D) fun D' hD =>
    Keeps.bind (prepareH_keeps _ _ D' hD.2) fun _ _ => Keeps.bind (Keeps.lift _) fun _ _ =>
    Keeps.bind (Keeps.foldlM _ _ _ fun b i => ?_) fun _ _ => Keeps.pure _ trivial
  exact Keeps.bind (Keeps.inWorker w _ i) fun _ _ => Keeps.pure _ trivial

theorem serialH_run (o : ArgPart (XR K)) (rnd : Rnd) {n m : ℕ} (sparse : Bool) (D : Arr n m) (k : ℤ) (metric : String)
    (shuffle : Bool) (h : Mem (XR K)) :
    (serialH o rnd sparse D k metric shuffle h).1 = serial o rnd sparse (fun i j => h.cell (D i j)) k metric shuffle := by
  unfold serialH serial
  rw [lift_bind]
  congr 1
  funext _
  obtain ⟨D', h1, e1, hs, _, n1, l1, c1, _⟩ := copy_run D h
  simp only
  rw [bind_ok _ _ h h1 D' e1, lift_bind]
  by_cases hk : reduceK k m < 0
  · rw [if_pos hk, if_pos hk]
    rfl
  rw [if_neg hk, if_neg hk]
  obtain ⟨h2, e2, n2, c2⟩ := prepareH_run sparse (dSelf metric) D' hs h1
  show (_ : Py _ × Mem (XR K)).1 = _
  rw [bind_ok _ _ h1 h2 () e2]
  have hc : (fun i j => h1.cell (D' i j)) = fun i j => h.cell (D i j) := by
    funext i j
    exact c1 i j
  rw [hc] at c2
  have hr := rows_run sparse D' hs (rowChange metric (dSelf metric : XR K))
    (fun i v => rowValues metric (dSelf metric) (fun _ : Fin n => v) i)
    (fun i d hd => rowChange_rowOp metric _ i d hd)
    (fun (Dk : Fin n → Fin (reduceK k m).toNat → ℕ) i v => do
      let row ← selectRow o shuffle (rnd i m) (Np.arange (kthStart metric n (reduceK k m).toNat) (reduceK k m).toNat)
        (metric = "similarity") v
      pure (Function.update Dk i row)) (List.finRange n) (List.nodup_finRange n) _ (fun _ _ => 0) h2
    (fun i j => by rw [n2]; exact l1 i j) (fun i _ j => c2 i j)
  rw [bind_pure_fst]
  exact congrArg (fun y : Py _ => y >>= fun Dk => pure (finish m Dk)) hr

theorem parallelH_run (o : ArgPart (XR K)) (rnd : Rnd) (sched : Schedule) {n m : ℕ} (w : Workers n) (sparse : Bool)
    (D : Arr n m) (k : ℤ) (metric : String) (nJobs : ℤ) (shuffle : Bool) (h : Mem (XR K)) :
    (parallelH o rnd sched w sparse D k metric nJobs shuffle h).1
      = parallel o rnd sched sparse (fun i j => h.cell (D i j)) k metric nJobs shuffle := by
  unfold parallelH parallel
  rw [lift_bind]
  congr 1
  funext _
  simp only
  rw [lift_bind]
  by_cases hk : reduceK k m < 0
  · rw [if_pos hk, if_pos hk]
    rfl
  rw [if_neg hk, if_neg hk]
  obtain ⟨D', h1, e1, hs, _, n1, l1, c1, _⟩ := copy_run D h
  show (_ : Py _ × Mem (XR K)).1 = _
  rw [bind_ok _ _ h h1 D' e1]
  obtain ⟨h2, e2, n2, c2⟩ := prepareH_run sparse (dSelf metric) D' hs h1
  rw [bind_ok _ _ h1 h2 () e2, lift_bind]
  by_cases hj : nJobs ≠ -1 ∧ nJobs < 1
  · rw [if_pos hj, if_pos hj]
    rfl
  rw [if_neg hj, if_neg hj]
  have hc : (fun i j => h1.cell (D' i j)) = fun i j => h.cell (D i j) := by
    funext i j
    exact c1 i j
  rw [hc] at c2
  show (_ : Py _ × Mem (XR K)).1 = _
  rw [bind_pure_fst, foldlM_const (g := fun (R : Fin n → Fin (reduceK k m).toNat → ℕ) (i : Fin n) => do
      let row ← selectRow o shuffle (rnd i m) (Np.arange (kthStart metric m (reduceK k m).toNat) (reduceK k m).toNat)
        (metric = "similarity") (rowValues metric (dSelf metric)
          (prepare sparse (dSelf metric) fun i j => h.cell (D i j)) i)
      pure (Function.update R i row))]
  intro R i
  have hw := inWorker_rowStep w sparse D' hs (rowChange metric (dSelf metric : XR K))
    (fun i v => rowValues metric (dSelf metric) (fun _ : Fin n => v) i)
    (fun i d hd => rowChange_rowOp metric _ i d hd)
    (fun i v => selectRow o shuffle (rnd i m)
      (Np.arange (kthStart metric m (reduceK k m).toNat) (reduceK k m).toNat) (metric = "similarity") v) i h2
    (fun i j => by rw [n2]; exact l1 i j)
  have hrow : (fun j => h2.cell (D' i j)) = prepare sparse (dSelf metric) (fun i j => h.cell (D i j)) i := funext (c2 i)
  rw [hrow] at hw
  cases hsel : selectRow o shuffle (rnd i m) (Np.arange (kthStart metric m (reduceK k m).toNat) (reduceK k m).toNat)
        (metric = "similarity") (rowValues metric (dSelf metric)
          (fun _ : Fin n => prepare sparse (dSelf metric) (fun i j => h.cell (D i j)) i) i) with
  | error x =>
    rw [hsel] at hw
    rw [bind_error _ _ h2 h2 x hw]
    have : selectRow o shuffle (rnd i m) (Np.arange (kthStart metric m (reduceK k m).toNat) (reduceK k m).toNat)
        (metric = "similarity") (rowValues metric (dSelf metric)
          (prepare sparse (dSelf metric) fun i j => h.cell (D i j)) i) = .error x := hsel
    rw [this]
    rfl
  | ok x =>
    rw [hsel] at hw
    rw [bind_ok _ _ h2 h2 x hw]
    have : selectRow o shuffle (rnd i m) (Np.arange (kthStart metric m (reduceK k m).toNat) (reduceK k m).toNat)
        (metric = "similarity") (rowValues metric (dSelf metric)
          (prepare sparse (dSelf metric) fun i j => h.cell (D i j)) i) = .ok x := hsel
    rw [this]
    rfl

/-- `hubness` changes nothing that was in memory before the call: neither its argument nor anything else. -/
theorem C196_hubness (o : ArgPart (XR K)) (rnd : Rnd) (sched : Schedule) {n m : ℕ} (w : Workers n) (sparse : Bool)
    (D : Arr n m) (k : ℤ) (metric : String) (nJobs : ℤ) (seed shuffle : Bool) (h : Mem (XR K)) (a : Addr)
    (ha : a.1 < h.next) : (hubnessH o rnd sched w sparse D k metric nJobs seed shuffle h).2.cell a = h.cell a := by
  refine ((?_ : Keeps h.next (fun _ => True) (hubnessH o rnd sched w sparse D k metric nJobs seed shuffle)) h le_rfl).2.1 a ha
  unfold hubnessH
  exact Keeps.ite (serialH_keeps o rnd sparse D k metric shuffle)
    (Keeps.ite (Keeps.lift _) (parallelH_keeps o rnd sched w sparse D k metric nJobs shuffle))

/-- `hubness` with its in-place operations on views returns (or raises) what it would if all values were immutable, however the
elements of its argument are laid out in memory, and whichever tasks the worker processes have run before. -/
theorem C197_hubness (o : ArgPart (XR K)) (rnd : Rnd) (sched : Schedule) {n m : ℕ} (w : Workers n) (sparse : Bool)
    (D : Arr n m) (k : ℤ) (metric : String) (nJobs : ℤ) (seed shuffle : Bool) (h : Mem (XR K)) :
    (hubnessH o rnd sched w sparse D k metric nJobs seed shuffle h).1
      = hubnessMat o rnd sched sparse (fun i j => h.cell (D i j)) k metric nJobs seed shuffle := by
  unfold hubnessH hubnessMat
  split
  · exact serialH_run o rnd sparse D k metric shuffle h
  · split
    · rfl
    · exact parallelH_run o rnd sched w sparse D k metric nJobs shuffle h

end HubToolbox.Heap
