import Verif.Heap.SNN
import Verif.Heap.SampleProps

/-!
# Shared neighbours and Simhub: the argument stays unchanged, and views do no harm
-/

set_option autoImplicit false

namespace HubToolbox.Heap

open HubToolbox HubToolbox.SNN

section
variable {K : Type} [Field K] [LinearOrder K]

theorem snnPhases_run (w : World K) {n : ℕ} (D : Arr n n) (k : ℤ) (metric : String) (nJobs : ℤ) (sel : Fin n → List (Fin n))
    (h : Mem (XR K)) (hD : ∀ i j, (D i j).1 < h.next) :
    ∃ (L : Arr n n) (h' : Mem (XR K)), snnPhases w D k metric nJobs sel h = (.ok L, h') ∧ Simple L ∧
      (fun i j => h'.cell (L i j)) = if jobs w nJobs > 1 then secParallel w metric k (markParallel w sel)
        else secSerial metric k (markSerial sel) := by
  unfold snnPhases
  split
  · obtain ⟨L, h1, e1, s1, _, _, _, c1, _⟩ := new_run (secParallel w metric k (markParallel w sel)) h
    exact ⟨L, h1, e1, s1, funext fun i => funext fun j => c1 i j⟩
  · obtain ⟨L, h1, e1, s1, f1, _, _, c1, _⟩ := new_run (fun (_ _ : Fin n) => (.fin 0 : XR K)) h
    have hDL : ∀ i j i' j', D i j ≠ L i' j' := by
      intro i j i' j' e
      have := f1 i' j'
      have := hD i j
      rw [e] at this
      omega
    obtain ⟨h2, e2, _, c2, _⟩ := fillUpper_run (List.finRange n) D L s1 hDL 1
      (fun _ i j => entry metric k (overlap (markSerial sel i) (markSerial sel j))) h1
    refine ⟨L, h2, ?_, s1, ?_⟩
    · rw [bind_ok _ _ h h1 L e1, bind_ok _ _ h1 h2 () e2]
      rfl
    · rw [c2]
      simp only [c1]
      rfl

theorem Keeps.snnPhases {b : ℕ} (w : World K) {n : ℕ} (D : Arr n n) (k : ℤ) (metric : String) (nJobs : ℤ) (sel : Fin n → List (Fin n)) :
    Keeps b (fun L => Simple L ∧ Fresh b L) (snnPhases w D k metric nJobs sel) := by
  unfold Heap.snnPhases
  split
  · exact Keeps.new _
  · exact Keeps.bind (Keeps.new _) fun L hL => Keeps.bind (Keeps.fillUpper _ _ L hL.2 _ _) fun _ _ => Keeps.pure _ hL

/-- `shared_nearest_neighbors` computes in memory what it would if all values were immutable. -/
theorem C197_snn (w : World K) {n : ℕ} (D : Arr n n) (k : ℤ) (metric : String) (nJobs : ℤ) (h : Mem (XR K)) :
    contentsT (snnH w D k metric nJobs >>= fun L => pure ⟨n, L⟩) h
      = (core w (fun i j => h.cell (D i j)) k metric nJobs).map fun V => ⟨n, n, V⟩ := by
  obtain ⟨D', h1, e1, s1, f1, n1, l1, c1, _⟩ := copy_run D h
  obtain ⟨h2, e2, n2, c2, o2⟩ := modify_run D' s1 (fun V => Np.fillDiagonal V (exclude metric)) h1
  have d2 : (fun i j => h2.cell (D' i j)) = Np.fillDiagonal (fun i j => h.cell (D i j)) (exclude metric) := by
    funext i j
    rw [c2]
    simp only [c1]
  unfold snnH core
  rw [bind_bind, contentsT_bind _ _ h h1 D' e1, bind_bind, contentsT_bind _ _ h1 h2 () e2, bind_bind,
    contentsT_bind _ _ h2 h2 (fun i j => h2.cell (D' i j)) (by rfl), d2, bind_bind]
  simp only []
  cases hs : Np.tabulateM (fun i => hood w.part metric (kthOf metric n k) k (Np.fillDiagonal (fun i j => h.cell (D i j)) (exclude metric) i)) with
  | error x =>
    rw [contentsT_error _ _ h2 h2 x (by rfl)]
    rfl
  | ok sel =>
    rw [contentsT_bind _ _ h2 h2 sel (by rfl)]
    obtain ⟨L, h3, e3, s3, c3⟩ := snnPhases_run w D' k metric nJobs sel h2 (fun i j => by rw [n2]; exact l1 i j)
    obtain ⟨h4, e4, _, c4, _⟩ := addTransposed_run L s3 h3
    obtain ⟨h5, e5, _, c5, _⟩ := modify_run L s3 (fun V => Np.fillDiagonal V (selfValue metric)) h4
    rw [bind_bind, contentsT_bind _ _ h2 h3 L e3, bind_bind, contentsT_bind _ _ h3 h4 () e4, bind_bind, contentsT_bind _ _ h4 h5 () e5]
    show (Except.ok (⟨n, n, fun i j => h5.cell (L i j)⟩ : Σ t s : ℕ, Fin t → Fin s → XR K)) = _
    simp only [c5]
    rw [c4, c3]
    rfl

/-- `shared_nearest_neighbors` changes nothing that was in memory before the call. -/
theorem C196_snn (w : World K) {n : ℕ} (D : Arr n n) (k : ℤ) (metric : String) (nJobs : ℤ) (h : Mem (XR K)) (c : Addr)
    (hc : c.1 < h.next) : (snnH w D k metric nJobs h).2.cell c = h.cell c := by
  refine ((?_ : Keeps h.next (fun _ => True) (snnH w D k metric nJobs)) h le_rfl).2.1 c hc
  unfold snnH addTransposed
  exact Keeps.bind (Keeps.copy D) fun D' hD => Keeps.bind (Keeps.modify D' hD.2 _) fun _ _ => Keeps.bind (Keeps.read _) fun _ _ =>
    Keeps.bind (Keeps.lift _) fun _ _ => Keeps.bind (Keeps.snnPhases w D' k metric nJobs _) fun L hL =>
    Keeps.bind (Keeps.bind (Keeps.read _) fun _ _ => Keeps.modify L hL.2 _) fun _ _ => Keeps.bind (Keeps.modify L hL.2 _) fun _ _ =>
    Keeps.pure _ trivial

theorem snnSamplePhases_run (w : World K) {n s : ℕ} (D : Arr n s) (k : ℤ) (metric : String) (idx : Fin s → Fin n)
    (test : Option (Σ t : ℕ, Fin t → Fin n)) (nJobs : ℤ) (sel : Fin n → List (Fin s)) (h : Mem (XR K)) (hD : ∀ i j, (D i j).1 < h.next) :
    ∃ (L : Arr n s) (h' : Mem (XR K)), snnSamplePhases w D k metric idx test nJobs sel h = (.ok L, h') ∧ Simple L ∧
      (fun i j => h'.cell (L i j)) = if jobs w nJobs > 1 then
          rowsParallel w (rowsOf test) (fun i j => entry metric k (overlap (markParallel w sel i) (markParallel w sel (idx j))))
        else LS.fillRows (rowsOf test) (fun i j => entry metric k (overlap (markSerial sel i) (markSerial sel (idx j)))) := by
  unfold snnSamplePhases
  split
  · obtain ⟨L, h1, e1, s1, _, _, _, c1, _⟩ := new_run (rowsParallel w (rowsOf test) (fun i j =>
      entry metric k (overlap (markParallel w sel i) (markParallel w sel (idx j))))) h
    exact ⟨L, h1, e1, s1, funext fun i => funext fun j => c1 i j⟩
  · obtain ⟨L, h1, e1, s1, f1, _, _, c1, _⟩ := new_run (fun (_ : Fin n) (_ : Fin s) => (.fin 0 : XR K)) h
    have hDL : ∀ i j i' j', D i j ≠ L i' j' := by
      intro i j i' j' e
      have := f1 i' j'
      have := hD i j
      rw [e] at this
      omega
    obtain ⟨h2, e2, _, c2, _⟩ := fillRows_run (rowsOf test) D L s1 hDL
      (fun _ i j => entry metric k (overlap (markSerial sel i) (markSerial sel (idx j)))) h1
    refine ⟨L, h2, ?_, s1, ?_⟩
    · rw [bind_ok _ _ h h1 L e1, bind_ok _ _ h1 h2 () e2]
      rfl
    · rw [c2]
      simp only [c1]
      rfl

theorem Keeps.snnSamplePhases {b : ℕ} (w : World K) {n s : ℕ} (D : Arr n s) (k : ℤ) (metric : String) (idx : Fin s → Fin n)
    (test : Option (Σ t : ℕ, Fin t → Fin n)) (nJobs : ℤ) (sel : Fin n → List (Fin s)) :
    Keeps b (fun L => Simple L ∧ Fresh b L) (snnSamplePhases w D k metric idx test nJobs sel) := by
  unfold Heap.snnSamplePhases
  split
  · exact Keeps.new _
  · exact Keeps.bind (Keeps.new _) fun L hL => Keeps.bind (Keeps.fillRows _ _ L hL.2 _) fun _ _ => Keeps.pure _ hL

/-- `snn_sample` computes in memory what it would if all values were immutable. -/
theorem C197_snn_sample (w : World K) {n s : ℕ} (hs : s ≤ n) (D : Arr n s) (k : ℤ) (metric : String)
    (hm : metric = "distance" ∨ metric = "similarity") (idx : Fin s → Fin n) (test : Option (Σ t : ℕ, Fin t → Fin n)) (nJobs : ℤ)
    (h : Mem (XR K)) :
    contentsT (snnSampleH w D k metric idx test nJobs) h
      = snnSample w (.mat false n s fun i j => h.cell (D i j)) k metric (some ⟨s, fun j => ((idx j).val : ℤ)⟩)
        (test.map fun t => ⟨t.1, fun a => ((t.2 a).val : ℤ)⟩) nJobs := by
  obtain ⟨D', h1, e1, s1, f1, n1, l1, c1, _⟩ := copy_run D h
  obtain ⟨h2, e2, n2, c2, o2⟩ := storeSamples_eq D' s1 idx (exclude metric : XR K) h1
  simp only [c1] at c2
  set sel : Fin n → List (Fin s) := fun i => top metric (w.srt.run (LS.setSelf idx (exclude metric) (fun i j => h.cell (D i j)) i)) k with hsel
  obtain ⟨L, h3, e3, s3, c3⟩ := snnSamplePhases_run w D' k metric idx test nJobs sel h2 (fun i j => by rw [n2]; exact l1 i j)
  have hs' : ¬ s > n := by omega
  have hv : checkValidMetric metric = .ok () := by rcases hm with rfl | rfl <;> rfl
  unfold snnSampleH
  rw [contentsT_bind _ _ h h1 D' e1, contentsT_bind _ _ h1 h2 () e2, contentsT_bind _ _ h2 h2 (fun i j => h2.cell (D' i j)) (by rfl), c2,
    contentsT_bind _ _ h2 h3 L e3]
  unfold snnSample
  simp only [LS.checkSample, hs', if_false, dif_pos]
  match test with
  | none =>
    obtain ⟨h4, e4, _, c4, _⟩ := modify_run L s3 (fun V => Np.fillDiagonal V (selfValue metric)) h3
    refine (contentsT_bind (modify L (fun V => Np.fillDiagonal V (selfValue metric))) (fun _ => selectRows L none) h3 h4 () e4).trans ?_
    rw [selectRows_run]
    simp only [c4]
    rw [c3]
    simp only [hv, MPEmp.wrapAll_val, Option.map_none, wrapTest, bind, Except.bind, Fin.cast_eq_self]
    rfl
  | some ⟨t, v⟩ =>
    obtain ⟨h4, e4, _, c4, _⟩ := storeSamples_eq L s3 idx (selfValue metric) h3
    refine (contentsT_bind (storeSamples L idx (selfValue metric)) (fun _ => selectRows L (some ⟨t, v⟩)) h3 h4 () e4).trans ?_
    rw [selectRows_run, c4, c3]
    simp only [hv, MPEmp.wrapAll_val, Option.map_some, wrapTest, bind, Except.bind, Fin.cast_eq_self]
    rfl

/-- `snn_sample` changes nothing that was in memory before the call. -/
theorem C196_snn_sample (w : World K) {n s : ℕ} (D : Arr n s) (k : ℤ) (metric : String) (idx : Fin s → Fin n)
    (test : Option (Σ t : ℕ, Fin t → Fin n)) (nJobs : ℤ) (h : Mem (XR K)) (c : Addr) (hc : c.1 < h.next) :
    (snnSampleH w D k metric idx test nJobs h).2.cell c = h.cell c := by
  refine ((?_ : Keeps h.next (fun _ => True) (snnSampleH w D k metric idx test nJobs)) h le_rfl).2.1 c hc
  unfold snnSampleH
  refine Keeps.bind (Keeps.copy D) fun D' hD => Keeps.bind (Keeps.storeSamples D' hD.2 _ _) fun _ _ => Keeps.bind (Keeps.read _) fun _ _ =>
    Keeps.bind (Keeps.snnSamplePhases w D' k metric idx test nJobs _) fun L hL => ?_
  match test with
  | none => exact Keeps.bind (Keeps.modify L hL.2 _) fun _ _ => Keeps.selectRows L none
  | some t => exact Keeps.bind (Keeps.storeSamples L hL.2 _ _) fun _ _ => Keeps.selectRows L (some t)

end

theorem excludeSelf_run {n m : ℕ} (D : Arr n m) (hD : Simple D) (idx : Option (Fin m → Fin n)) (h : Mem (XR ℝ)) :
    ∃ h' : Mem (XR ℝ), excludeSelf D idx h = (.ok (), h') ∧ h'.next = h.next ∧
      .ok (fun i j => h'.cell (D i j), idx) = shiExclude false (fun i j => h.cell (D i j)) (idx.map fun v j => ((v j).val : ℤ)) := by
  match idx with
  | none =>
    obtain ⟨h1, e1, n1, c1, _⟩ := modify_run D hD (fun V => Np.fillDiagonal V (.pinf : XR ℝ)) h
    refine ⟨h1, e1, n1, ?_⟩
    simp only [c1]
    rfl
  | some v =>
    obtain ⟨h1, e1, n1, c1, _⟩ := storeSamples_eq D hD v (.pinf : XR ℝ) h
    refine ⟨h1, e1, n1, ?_⟩
    simp only [shiExclude, Option.map_some, MPEmp.wrapAll_val]
    rw [c1]

theorem Keeps.excludeSelf {b n m : ℕ} (D : Arr n m) (hD : Fresh b D) (idx : Option (Fin m → Fin n)) :
    Keeps b (fun _ => True) (excludeSelf D idx) := by
  match idx with
  | none => exact Keeps.modify D hD _
  | some v => exact Keeps.storeSamples D hD _ _

theorem shiFinishH_run {n m : ℕ} (L : Arr n m) (hL : Simple L) (norm : XR ℝ) (returnDist : Bool)
    (test : Option (Σ t : ℕ, Fin t → Fin n)) (h : Mem (XR ℝ)) :
    contentsT (shiFinishH L norm returnDist test) h = .ok (shiFinish (fun i j => h.cell (L i j)) norm returnDist test) := by
  obtain ⟨h1, e1, _, c1, _⟩ := modify_run L hL (fun V i j => XR.div (V i j) norm) h
  cases returnDist with
  | false =>
    match test with
    | none =>
      obtain ⟨h2, e2, _, c2, _⟩ := modify_run L hL (fun V => Np.fillDiagonal V (.fin 1 : XR ℝ)) h1
      have : shiFinishH L norm false none = (modify L (fun V i j => XR.div (V i j) norm) >>= fun _ =>
        modify L (fun V => Np.fillDiagonal V (.fin 1 : XR ℝ)) >>= fun _ => selectRows L none) := rfl
      rw [this, contentsT_bind _ _ h h1 () e1, contentsT_bind _ _ h1 h2 () e2, selectRows_run]
      simp only [c2, c1]
      rfl
    | some t =>
      have : shiFinishH L norm false (some t) = (modify L (fun V i j => XR.div (V i j) norm) >>= fun _ => selectRows L (some t)) := rfl
      rw [this, contentsT_bind _ _ h h1 () e1, selectRows_run]
      simp only [c1]
      rfl
  | true =>
    obtain ⟨h2, e2, _, c2, _⟩ := modify_run L hL (fun V i j => XR.mul (V i j) (.fin (-1))) h1
    obtain ⟨h3, e3, _, c3, _⟩ := modify_run L hL (fun V i j => XR.add (V i j) (.fin 1)) h2
    match test with
    | none =>
      obtain ⟨h4, e4, _, c4, _⟩ := modify_run L hL (fun V => Np.fillDiagonal V (.fin 0 : XR ℝ)) h3
      have : shiFinishH L norm true none = (modify L (fun V i j => XR.div (V i j) norm) >>= fun _ =>
        modify L (fun V i j => XR.mul (V i j) (.fin (-1))) >>= fun _ => modify L (fun V i j => XR.add (V i j) (.fin 1)) >>= fun _ =>
        modify L (fun V => Np.fillDiagonal V (.fin 0 : XR ℝ)) >>= fun _ => selectRows L none) := rfl
      rw [this, contentsT_bind _ _ h h1 () e1, contentsT_bind _ _ h1 h2 () e2, contentsT_bind _ _ h2 h3 () e3, contentsT_bind _ _ h3 h4 () e4,
        selectRows_run]
      simp only [c4, c3, c2, c1]
      rfl
    | some t =>
      have : shiFinishH L norm true (some t) = (modify L (fun V i j => XR.div (V i j) norm) >>= fun _ =>
        modify L (fun V i j => XR.mul (V i j) (.fin (-1))) >>= fun _ => modify L (fun V i j => XR.add (V i j) (.fin 1)) >>= fun _ =>
        selectRows L (some t)) := rfl
      rw [this, contentsT_bind _ _ h h1 () e1, contentsT_bind _ _ h1 h2 () e2, contentsT_bind _ _ h2 h3 () e3, selectRows_run]
      simp only [c3, c2, c1]
      rfl

theorem Keeps.shiFinishH {b n m : ℕ} (L : Arr n m) (hL : Fresh b L) (norm : XR ℝ) (returnDist : Bool)
    (test : Option (Σ t : ℕ, Fin t → Fin n)) : Keeps b (fun _ => True) (shiFinishH L norm returnDist test) := by
  unfold Heap.shiFinishH
  refine Keeps.bind (Keeps.modify L hL _) fun _ _ => ?_
  rcases returnDist with _ | _ <;> rcases test with _ | t
  · exact Keeps.bind (Keeps.modify L hL _) fun _ _ => Keeps.selectRows L _
  · exact Keeps.selectRows L (some t)
  · exact Keeps.bind (Keeps.modify L hL _) fun _ _ => Keeps.bind (Keeps.modify L hL _) fun _ _ => Keeps.bind (Keeps.modify L hL _) fun _ _ =>
      Keeps.selectRows L _
  · exact Keeps.bind (Keeps.modify L hL _) fun _ _ => Keeps.bind (Keeps.modify L hL _) fun _ _ => Keeps.selectRows L (some t)

/-- `simhub` without labels, for all pairs or for distances to a sample, computes in memory what it would if all values were immutable. -/
theorem C197_simhub (w : World ℝ) {n m : ℕ} (hmn : m ≤ n) (D : Arr n m) (idx : Option (Fin m → Fin n)) (hsq : idx = none → n = m)
    (test : Option (Σ t : ℕ, Fin t → Fin n)) (s : ℤ) (hs : 0 < s ∧ s < m) (returnDist : Bool) (vectUsage : ℤ) (h : Mem (XR ℝ)) :
    contentsT (simhubH w hmn D idx test s returnDist vectUsage) h
      = simhub w (.mat false n m fun i j => h.cell (D i j)) none (idx.map fun v => ⟨m, fun j => ((v j).val : ℤ)⟩)
        (test.map fun t => ⟨t.1, fun a => ((t.2 a).val : ℤ)⟩) s returnDist vectUsage := by
  obtain ⟨D', h1, e1, s1, f1, n1, l1, c1, _⟩ := copy_run D h
  obtain ⟨h2, e2, n2, c2⟩ := excludeSelf_run D' s1 idx h1
  simp only [c1] at c2
  obtain ⟨L, h3, e3, s3, f3, n3, l3, c3, o3⟩ := new_run (fun (_ : Fin n) (_ : Fin m) => (.fin 0 : XR ℝ)) h2
  have hDL : ∀ i j i' j', D' i j ≠ L i' j' := by
    intro i j i' j' e
    have := f3 i' j'
    have := l1 i j
    rw [e] at this
    omega
  set V := fun i j => h2.cell (D' i j) with hV
  set f : Fin n → Fin m → XR ℝ := fun i j => shared (markSerial (fun i => top "distance" (w.srt.run (V i)) s) i)
    (markSerial (fun i => top "distance" (w.srt.run (V i)) s) (partner hmn (decide (vectUsage > 0 ∨ (vectUsage = 0 ∧ m < 2000))) idx j))
    (fun c => XR.mul (informativeness m (occ (markSerial (fun i => top "distance" (w.srt.run (V i)) s)) c + 1)) (.fin 1)) with hf
  obtain ⟨h4, e4, n4, c4, o4⟩ := fillRows_run (rowsOf test) D' L s3 hDL (fun _ => f) h3
  simp only [c3] at c4
  have c4' : (fun i j => h4.cell (L i j)) = LS.fillRows (rowsOf test) f := c4
  unfold simhubH
  rw [contentsT_bind _ _ h h1 D' e1, contentsT_bind _ _ h1 h2 () e2, contentsT_bind _ _ h2 h2 V (by rfl), contentsT_bind _ _ h2 h3 L e3,
    contentsT_bind _ _ h3 h4 () e4, shiFinishH_run L s3, c4']
  have hw : wrapTest n (test.map fun t => ⟨t.1, fun a => ((t.2 a).val : ℤ)⟩) = .ok test := by
    match test with
    | none => rfl
    | some ⟨t, v⟩ => simp only [wrapTest, Option.map_some, MPEmp.wrapAll_val]
  have hch : shiCheck (.mat false n m fun i j => h.cell (D i j)) (idx.map fun v => ⟨m, fun j => ((v j).val : ℤ)⟩)
      = .ok (false, ⟨n, m, fun i j => h.cell (D i j), idx.map fun v j => ((v j).val : ℤ)⟩) := by
    match idx with
    | none =>
      obtain rfl := hsq rfl
      simp only [shiCheck, Option.map_none, PyMat.checkSquare, dif_pos, bind, Except.bind]
      rfl
    | some v =>
      have hs' : ¬ m > n := by omega
      simp only [shiCheck, Option.map_some, LS.checkSample, hs', if_false, dif_pos, bind, Except.bind]
      rfl
  unfold simhub
  simp only [hch, bind, Except.bind, ← c2, hw, hs, hmn, dif_pos, and_self, not_true_eq_false, if_false]
  rfl

/-- `simhub` changes nothing that was in memory before the call. -/
theorem C196_simhub (w : World ℝ) {n m : ℕ} (hmn : m ≤ n) (D : Arr n m) (idx : Option (Fin m → Fin n))
    (test : Option (Σ t : ℕ, Fin t → Fin n)) (s : ℤ) (returnDist : Bool) (vectUsage : ℤ) (h : Mem (XR ℝ)) (c : Addr) (hc : c.1 < h.next) :
    (simhubH w hmn D idx test s returnDist vectUsage h).2.cell c = h.cell c := by
  refine ((?_ : Keeps h.next (fun _ => True) (simhubH w hmn D idx test s returnDist vectUsage)) h le_rfl).2.1 c hc
  unfold simhubH
  exact Keeps.bind (Keeps.copy D) fun D' hD => Keeps.bind (Keeps.excludeSelf D' hD.2 _) fun _ _ => Keeps.bind (Keeps.read _) fun _ _ =>
    Keeps.bind (Keeps.new _) fun L hL => Keeps.bind (Keeps.fillRows _ _ L hL.2 _) fun _ _ => Keeps.shiFinishH L hL.2 _ _ _

end HubToolbox.Heap
