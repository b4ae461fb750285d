import Verif.Heap.Sample
import Verif.Heap.MPProps
import Verif.LS.Sample
import Verif.MPEmp.Props

/-!
# The functions for distances to a sample: the argument stays unchanged, and views do no harm
-/

set_option autoImplicit false

namespace HubToolbox.Heap

open HubToolbox

section
variable {α : Type}

/-- The shape and the values of the array which a program returns. -/
def contentsT {s : ℕ} (f : M α (Σ t : ℕ, Arr t s)) (h : Mem α) : Py (Σ t s : ℕ, Fin t → Fin s → α) :=
  ((do let r ← f; let V ← read r.2; pure ⟨r.1, s, V⟩ : M α (Σ t s : ℕ, Fin t → Fin s → α)) h).1

/-- The selected rows of an immutable array. -/
def rowsAt {n s : ℕ} (V : Fin n → Fin s → α) : Option (Σ t : ℕ, Fin t → Fin n) → Σ t s : ℕ, Fin t → Fin s → α
  | none => ⟨n, s, V⟩
  | some ⟨t, v⟩ => ⟨t, s, fun a => V (v a)⟩

theorem selectRows_run {n s : ℕ} (L : Arr n s) (test : Option (Σ t : ℕ, Fin t → Fin n)) (h : Mem α) :
    contentsT (selectRows L test) h = .ok (rowsAt (fun i j => h.cell (L i j)) test) := by
  match test with
  | none => rfl
  | some ⟨t, v⟩ =>
    obtain ⟨A, h1, e1, _, _, _, _, c1, _⟩ := new_run (fun (a : Fin t) (j : Fin s) => h.cell (L (v a) j)) h
    unfold contentsT selectRows
    rw [bind_bind, bind_ok _ _ h h (fun i j => h.cell (L i j)) (by rfl), bind_bind, bind_ok _ _ h h1 A e1]
    show (Except.ok (⟨t, s, fun i j => h1.cell (A i j)⟩ : Σ t s : ℕ, Fin t → Fin s → α)) = _
    simp only [c1]
    rfl

theorem Keeps.selectRows {b n s : ℕ} (L : Arr n s) (test : Option (Σ t : ℕ, Fin t → Fin n)) :
    Keeps b (fun _ => True) (selectRows L test : M α _) := by
  match test with
  | none => exact Keeps.pure _ trivial
  | some ⟨t, v⟩ => exact Keeps.bind (Keeps.read _) fun _ _ => Keeps.bind (Keeps.new _) fun _ _ => Keeps.pure _ trivial

theorem Keeps.fillRows {b n m : ℕ} (rows : List (Fin n)) (D L : Arr n m) (hL : Fresh b L)
    (f : (Fin n → Fin m → α) → Fin n → Fin m → α) : Keeps b (fun _ => True) (fillRows rows D L f) :=
  Keeps.foldlM _ _ _ fun _ i => Keeps.bind (Keeps.read _) fun _ _ => Keeps.assignV _ (hL i) _

theorem fillRows_run {n m : ℕ} (rows : List (Fin n)) (D L : Arr n m) (hL : Simple L) (hDL : ∀ i j i' j', D i j ≠ L i' j')
    (f : (Fin n → Fin m → α) → Fin n → Fin m → α) (h : Mem α) :
    ∃ h' : Mem α, fillRows rows D L f h = (.ok (), h') ∧ h'.next = h.next ∧
      ((fun i j => h'.cell (L i j)) = rows.foldl (fun (M : Fin n → Fin m → α) (i : Fin n) =>
        Function.update M i (f (fun i j => h.cell (D i j)) i)) (fun i j => h.cell (L i j))) ∧
      ∀ b : Addr, (∀ i j, L i j ≠ b) → h'.cell b = h.cell b := by
  suffices hs : ∀ (l : List (Fin n)) (h1 : Mem α), (∀ i j, h1.cell (D i j) = h.cell (D i j)) → ∃ h' : Mem α,
      (l.foldlM (fun _ i => do
        let V ← read D
        assignV (L i) (f V i)) () : M α Unit) h1 = (.ok (), h') ∧ h'.next = h1.next ∧
      ((fun i j => h'.cell (L i j)) = l.foldl (fun (M : Fin n → Fin m → α) (i : Fin n) =>
        Function.update M i (f (fun i j => h.cell (D i j)) i)) (fun i j => h1.cell (L i j))) ∧
      ∀ b : Addr, (∀ i j, L i j ≠ b) → h'.cell b = h1.cell b from hs _ h fun _ _ => rfl
  intro l
  induction l with
  | nil => exact fun h1 _ => ⟨h1, rfl, rfl, rfl, fun _ _ => rfl⟩
  | cons t l ih =>
    intro h1 hD
    set h2 : Mem α := Mem.mk (stores (List.finRange m) (L t) (f (fun i j => h.cell (D i j)) t) h1.cell) h1.next with hh2
    have e2 : (read D >>= fun V => assignV (L t) (f V t) : M α Unit) h1 = (.ok (), h2) := by
      rw [bind_ok _ _ h1 h1 (fun i j => h1.cell (D i j)) (by rfl)]
      simp only [hD]
      rfl
    have o2 : ∀ b : Addr, (∀ i j, L i j ≠ b) → h2.cell b = h1.cell b := fun b hb => stores_of_not_mem _ _ _ _ _ fun j _ => hb t j
    obtain ⟨h', e, n', c', o'⟩ := ih h2 fun i j => (o2 _ fun i' j' e => hDL i j i' j' e.symm).trans (hD i j)
    refine ⟨h', ?_, n', ?_, fun b hb => (o' b hb).trans (o2 b hb)⟩
    · rw [List.foldlM_cons, bind_ok _ _ h1 h2 () e2, e]
    · rw [c', List.foldl_cons]
      congr 1
      funext i j
      by_cases hi : i = t
      · subst hi
        rw [Function.update_self]
        exact stores_of_mem _ _ _ _ (hL.row i) j (List.mem_finRange j)
      · rw [Function.update_of_ne hi]
        refine stores_of_not_mem _ _ _ _ _ fun j' _ e => hi ?_
        exact (hL _ _ _ _ e).1.symm

theorem storeSamples_eq {n s : ℕ} (D : Arr n s) (hD : Simple D) (idx : Fin s → Fin n) (v : α) (h : Mem α) :
    ∃ h' : Mem α, storeSamples D idx v h = (.ok (), h') ∧ h'.next = h.next ∧
      ((fun i j => h'.cell (D i j)) = LS.setSelf idx v (fun i j => h.cell (D i j))) ∧
      ∀ c : Addr, (∀ i j, D i j ≠ c) → h'.cell c = h.cell c := by
  obtain ⟨h', e, n', c', o'⟩ := storeSamples_run D hD idx v h
  refine ⟨h', e, n', ?_, o'⟩
  funext i j
  rw [c', LS.setSelf_apply]

end

theorem contentsT_bind {α β : Type} {s : ℕ} (f : M α β) (g : β → M α (Σ t : ℕ, Arr t s)) (h h' : Mem α) (x : β) (e : f h = (.ok x, h')) :
    contentsT (f >>= g) h = contentsT (g x) h' := by
  unfold contentsT
  rw [bind_bind, bind_ok _ _ h h' x e]

theorem contentsT_error {α β : Type} {s : ℕ} (f : M α β) (g : β → M α (Σ t : ℕ, Arr t s)) (h h' : Mem α) (x : PyErr)
    (e : f h = (.error x, h')) : contentsT (f >>= g) h = .error x := by
  unfold contentsT
  rw [bind_bind, bind_error _ _ h h' x e]

section
variable {K : Type} [Field K] [LinearOrder K]

/-- `mutual_proximity_empiric` with `sample_ind` computes in memory what it would if all values were immutable, for any matrix in any
memory, e.g. a view. -/
theorem C197_empiric_sample (metric : String) (hm : metric = "distance" ∨ metric = "similarity") {n s : ℕ} (hs : s ≤ n) (D : Arr n s)
    (idx : Fin s → Fin n) (test : Option (Σ t : ℕ, Fin t → Fin n)) (h : Mem (XR K)) :
    (contentsT (empiricSampleH metric D idx test) h).map (fun r => MPEmp.Result.sampled r.1 r.2.1 r.2.2)
      = MPEmp.sample (.mat false n s fun i j => h.cell (D i j)) (fun j => ((idx j).val : ℤ)) metric
        (test.map fun t => ⟨t.1, fun a => ((t.2 a).val : ℤ)⟩) := by
  obtain ⟨D', h1, e1, s1, f1, n1, l1, c1, _⟩ := copy_run D h
  obtain ⟨h2, e2, n2, c2, o2⟩ := storeSamples_eq D' s1 idx (MPEmp.excludeValue metric : XR K) h1
  simp only [c1] at c2
  obtain ⟨L, h3, e3, s3, f3, n3, l3, c3, o3⟩ := new_run (fun (_ : Fin n) (_ : Fin s) => (.nan : XR K)) h2
  have d3 : (fun i j => h3.cell (D' i j)) = LS.setSelf idx (MPEmp.excludeValue metric) (fun i j => h.cell (D i j)) := by
    rw [← c2]
    funext i j
    exact o3 _ (by have := l1 i j; omega)
  have hDL : ∀ i j i' j', D' i j ≠ L i' j' := by
    intro i j i' j' e
    have := f3 i' j'
    have := l1 i j
    rw [e] at this
    omega
  obtain ⟨h4, e4, n4, c4, o4⟩ := fillRows_run (SNN.rowsOf test) D' L s3 hDL
    (fun V i j => .fin (MPEmp.entry metric (V i) (V (idx j)) (V i j))) h3
  rw [d3] at c4
  simp only [c3] at c4
  obtain ⟨h5, e5, n5, c5, o5⟩ := storeSamples_eq L s3 idx (.fin (MPEmp.selfValue metric) : XR K) h4
  rw [c4] at c5
  unfold empiricSampleH
  rw [contentsT_bind _ _ h h1 D' e1, contentsT_bind _ _ h1 h2 () e2, contentsT_bind _ _ h2 h3 L e3, contentsT_bind _ _ h3 h4 () e4,
    contentsT_bind _ _ h4 h5 () e5, selectRows_run, c5]
  have hm' : ¬ (metric ≠ "distance" ∧ metric ≠ "similarity") := by tauto
  have hs' : ¬ s > n := by omega
  match test with
  | none =>
    simp only [MPEmp.sample, hm', hs', if_false, dif_pos, Bool.false_eq_true, MPEmp.wrapAll_val, Option.map_none]
    rfl
  | some ⟨t, v⟩ =>
    simp only [MPEmp.sample, hm', hs', if_false, dif_pos, Bool.false_eq_true, MPEmp.wrapAll_val, Option.map_some]
    rfl

/-- `mutual_proximity_empiric` with `sample_ind` changes nothing that was in memory before the call. -/
theorem C196_empiric_sample (metric : String) {n s : ℕ} (D : Arr n s) (idx : Fin s → Fin n) (test : Option (Σ t : ℕ, Fin t → Fin n))
    (h : Mem (XR K)) (c : Addr) (hc : c.1 < h.next) : (empiricSampleH metric D idx test h).2.cell c = h.cell c := by
  refine ((?_ : Keeps h.next (fun _ => True) (empiricSampleH metric D idx test : M (XR K) _)) h le_rfl).2.1 c hc
  unfold empiricSampleH
  exact Keeps.bind (Keeps.copy D) fun D' hD => Keeps.bind (Keeps.storeSamples D' hD.2 _ _) fun _ _ => Keeps.bind (Keeps.new _) fun L hL =>
    Keeps.bind (Keeps.fillRows _ _ L hL.2 _) fun _ _ => Keeps.bind (Keeps.storeSamples L hL.2 _ _) fun _ _ => Keeps.selectRows L test

end

theorem rowFinVals_eq {n s : ℕ} (V : Fin n → Fin s → XR ℝ) (d : Fin n → Fin s → ℝ) (idx : Fin s → Fin n) (i : Fin n)
    (hV : ∀ j, V i j = if i = idx j then .nan else .fin (d i j)) : rowFinVals V i = MPPar.rowVals d idx i := by
  unfold rowFinVals MPPar.rowVals
  induction List.finRange s with
  | nil => rfl
  | cons t l ih =>
    by_cases ht : i = idx t
    · have ht' : idx t = i := ht.symm
      simpa [hV, ht'] using ih
    · have ht' : ¬ idx t = i := fun e => ht e.symm
      simpa [hV, ht, ht'] using ih

/-- `mutual_proximity_gaussi_sample` of finite distances computes in memory what it would if all values were immutable. -/
theorem C197_gaussi_sample (F : MPPar.Dists) (metric : String) (hm : metric = "distance" ∨ metric = "similarity") {n s : ℕ} (hs : s ≤ n)
    (D : Arr n s) (idx : Fin s → Fin n) (test : Option (Σ t : ℕ, Fin t → Fin n)) (h : Mem (XR ℝ))
    (d : Fin n → Fin s → ℝ) (hd : ∀ i j, h.cell (D i j) = .fin (d i j)) :
    contentsT (gaussiSampleH F metric D idx test) h
      = MPPar.gaussiSample F (.mat false n s d) (some ⟨s, fun j => ((idx j).val : ℤ)⟩) metric
        (test.map fun t => ⟨t.1, fun a => ((t.2 a).val : ℤ)⟩) := by
  obtain ⟨D', h1, e1, s1, f1, n1, l1, c1, _⟩ := copy_run D h
  obtain ⟨h2, e2, n2, c2, o2⟩ := storeSamples_run D' s1 idx (.nan : XR ℝ) h1
  simp only [c1, hd] at c2
  have hrow : ∀ i, rowFinVals (fun i j => h2.cell (D' i j)) i = MPPar.rowVals d idx i := fun i => rowFinVals_eq _ d idx i fun j => c2 i j
  obtain ⟨h3, e3, n3, c3, o3⟩ := storeSamples_run D' s1 idx (MPPar.selfValue metric) h2
  obtain ⟨L, h4, e4, s4, f4, n4, l4, c4, o4⟩ := new_run (fun (_ : Fin n) (_ : Fin s) => (.fin 0 : XR ℝ)) h3
  have d4 : ∀ i j, i ≠ idx j → h4.cell (D' i j) = .fin (d i j) := by
    intro i j hij
    rw [o4 _ (by have := l1 i j; omega), c3, if_neg hij, c2, if_neg hij]
  have hDL : ∀ i j i' j', D' i j ≠ L i' j' := by
    intro i j i' j' e
    have := f4 i' j'
    have := l1 i j
    rw [e] at this
    omega
  obtain ⟨h5, e5, n5, c5, o5⟩ := fillRows_run (SNN.rowsOf test) D' L s4 hDL
    (fun V i j => MPPar.gaussEntry F metric (val (V i j)) (MPPar.nanmean (MPPar.rowVals d idx i))
      (MPPar.noZero (XR.sqrt (MPPar.nanvar 0 (MPPar.rowVals d idx i)))) (MPPar.nanmean (MPPar.rowVals d idx (idx j)))
      (MPPar.noZero (XR.sqrt (MPPar.nanvar 0 (MPPar.rowVals d idx (idx j)))))) h4
  simp only [c4] at c5
  obtain ⟨h6, e6, n6, c6, o6⟩ := storeSamples_eq L s4 idx (MPPar.selfValue metric) h5
  have key : (fun i j => h6.cell (L i j))
      = LS.setSelf idx (MPPar.selfValue metric) (LS.fillRows (SNN.rowsOf test) (MPPar.gaussiEntries F metric d idx)) := by
    rw [c6]
    funext i j
    rw [LS.setSelf_apply, LS.setSelf_apply]
    by_cases hij : i = idx j
    · rw [if_pos hij, if_pos hij]
    · rw [if_neg hij, if_neg hij, LS.fillRows_apply]
      have hc := congrFun (congrFun c5 i) j
      refine hc.trans ?_
      have := LS.fillRows_apply (SNN.rowsOf test) (fun i j => MPPar.gaussEntry F metric (val (h4.cell (D' i j))) (MPPar.nanmean (MPPar.rowVals d idx i))
        (MPPar.noZero (XR.sqrt (MPPar.nanvar 0 (MPPar.rowVals d idx i)))) (MPPar.nanmean (MPPar.rowVals d idx (idx j)))
        (MPPar.noZero (XR.sqrt (MPPar.nanvar 0 (MPPar.rowVals d idx (idx j)))))) i
      refine (congrFun this j).trans ?_
      by_cases hr : i ∈ SNN.rowsOf test
      · rw [if_pos hr, if_pos hr]
        show MPPar.gaussEntry F metric (val (h4.cell (D' i j))) _ _ _ _ = _
        rw [d4 i j hij]
        rfl
      · rw [if_neg hr, if_neg hr]
  unfold gaussiSampleH
  rw [contentsT_bind _ _ h h1 D' e1, contentsT_bind _ _ h1 h2 () e2, contentsT_bind _ _ h2 h2 (fun i j => h2.cell (D' i j)) (by rfl)]
  simp only [hrow]
  rw [contentsT_bind _ _ h2 h3 () e3, contentsT_bind _ _ h3 h4 L e4, contentsT_bind _ _ h4 h5 () e5, contentsT_bind _ _ h5 h6 () e6,
    selectRows_run, key]
  have hs' : ¬ s > n := by omega
  have hv : checkValidMetric metric = .ok () := by rcases hm with rfl | rfl <;> rfl
  unfold MPPar.gaussiSample
  simp only [LS.checkSample, hs', if_false, dif_pos]
  match test with
  | none =>
    simp only [hv, MPEmp.wrapAll_val, Option.map_none, SNN.wrapTest, bind, Except.bind, Fin.cast_eq_self]
    rfl
  | some ⟨t, v⟩ =>
    simp only [hv, MPEmp.wrapAll_val, Option.map_some, SNN.wrapTest, bind, Except.bind, Fin.cast_eq_self]
    rfl

/-- `mutual_proximity_gaussi_sample` changes nothing that was in memory before the call. -/
theorem C196_gaussi_sample (F : MPPar.Dists) (metric : String) {n s : ℕ} (D : Arr n s) (idx : Fin s → Fin n)
    (test : Option (Σ t : ℕ, Fin t → Fin n)) (h : Mem (XR ℝ)) (c : Addr) (hc : c.1 < h.next) :
    (gaussiSampleH F metric D idx test h).2.cell c = h.cell c := by
  refine ((?_ : Keeps h.next (fun _ => True) (gaussiSampleH F metric D idx test)) h le_rfl).2.1 c hc
  unfold gaussiSampleH
  exact Keeps.bind (Keeps.copy D) fun D' hD => Keeps.bind (Keeps.storeSamples D' hD.2 _ _) fun _ _ => Keeps.bind (Keeps.read _) fun _ _ =>
    Keeps.bind (Keeps.storeSamples D' hD.2 _ _) fun _ _ => Keeps.bind (Keeps.new _) fun L hL =>
    Keeps.bind (Keeps.fillRows _ _ L hL.2 _) fun _ _ => Keeps.bind (Keeps.storeSamples L hL.2 _ _) fun _ _ => Keeps.selectRows L test

theorem finishH_run {n s : ℕ} (L : Arr n s) (hL : Simple L) (idx : Fin s → Fin n) (test : Option (Σ t : ℕ, Fin t → Fin n)) (h : Mem (XR ℝ))
    (f : Fin n → Fin s → XR ℝ) (hf : (fun i j => h.cell (L i j)) = LS.fillRows (SNN.rowsOf test) f) :
    contentsT (finishH L idx test) h = LS.finish idx f (test.map fun t => ⟨t.1, fun a => ((t.2 a).val : ℤ)⟩) := by
  match test with
  | none =>
    obtain ⟨h1, e1, _, c1, _⟩ := modify_run L hL (fun V => Np.fillDiagonal V (.fin 0 : XR ℝ)) h
    have : finishH L idx none = (modify L (fun V => Np.fillDiagonal V (.fin 0 : XR ℝ)) >>= fun _ => selectRows L none) := rfl
    rw [this, contentsT_bind _ _ h h1 () e1, selectRows_run]
    simp only [c1]
    rw [hf]
    rfl
  | some ⟨t, v⟩ =>
    obtain ⟨h1, e1, _, c1, _⟩ := storeSamples_eq L hL idx (.fin 0 : XR ℝ) h
    have : finishH L idx (some ⟨t, v⟩) = (storeSamples L idx (.fin 0 : XR ℝ) >>= fun _ => selectRows L (some ⟨t, v⟩)) := rfl
    rw [this, contentsT_bind _ _ h h1 () e1, selectRows_run, c1, hf]
    simp only [LS.finish, Option.map_some, MPEmp.wrapAll_val]
    rfl

theorem Keeps.finishH {b n s : ℕ} (L : Arr n s) (hL : Fresh b L) (idx : Fin s → Fin n) (test : Option (Σ t : ℕ, Fin t → Fin n)) :
    Keeps b (fun _ => True) (finishH L idx test) := by
  unfold Heap.finishH
  match test with
  | none => exact Keeps.bind (Keeps.modify L hL _) fun _ _ => Keeps.selectRows L none
  | some t => exact Keeps.bind (Keeps.storeSamples L hL _ _) fun _ _ => Keeps.selectRows L (some t)

/-- The common part of `local_scaling_sample` and `nicdm_sample`. -/
theorem sampleCore_run {n s : ℕ} (D : Arr n s) (idx : Fin s → Fin n) (test : Option (Σ t : ℕ, Fin t → Fin n)) (h : Mem (XR ℝ))
    (R : (Fin n → Fin s → XR ℝ) → Py (Fin n → XR ℝ)) (E : (Fin n → XR ℝ) → XR ℝ → Fin n → Fin s → XR ℝ) :
    contentsT (do
      let D ← copy D
      storeSamples D idx .pinf
      let V ← read D
      let r ← lift (R V)
      let L ← new (fun _ _ => .fin 0)
      fillRows (SNN.rowsOf test) D L (fun V i j => E r (V i j) i j)
      finishH L idx test) h
      = (do
        let D := LS.setSelf idx .pinf (fun i j => h.cell (D i j))
        let r ← R D
        LS.finish idx (fun i j => E r (D i j) i j) (test.map fun t => ⟨t.1, fun a => ((t.2 a).val : ℤ)⟩)) := by
  obtain ⟨D', h1, e1, s1, f1, n1, l1, c1, _⟩ := copy_run D h
  obtain ⟨h2, e2, n2, c2, o2⟩ := storeSamples_eq D' s1 idx (.pinf : XR ℝ) h1
  simp only [c1] at c2
  rw [contentsT_bind _ _ h h1 D' e1, contentsT_bind _ _ h1 h2 () e2, contentsT_bind _ _ h2 h2 (fun i j => h2.cell (D' i j)) (by rfl), c2]
  cases hr : R (LS.setSelf idx .pinf (fun i j => h.cell (D i j))) with
  | error x =>
    rw [contentsT_error _ _ h2 h2 x (by rfl)]
    simp only [hr]
    rfl
  | ok r =>
    rw [contentsT_bind _ _ h2 h2 r (by rfl)]
    obtain ⟨L, h3, e3, s3, f3, n3, l3, c3, o3⟩ := new_run (fun (_ : Fin n) (_ : Fin s) => (.fin 0 : XR ℝ)) h2
    have d3 : (fun i j => h3.cell (D' i j)) = LS.setSelf idx .pinf (fun i j => h.cell (D i j)) := by
      rw [← c2]
      funext i j
      exact o3 _ (by have := l1 i j; omega)
    have hDL : ∀ i j i' j', D' i j ≠ L i' j' := by
      intro i j i' j' e
      have := f3 i' j'
      have := l1 i j
      rw [e] at this
      omega
    obtain ⟨h4, e4, n4, c4, o4⟩ := fillRows_run (SNN.rowsOf test) D' L s3 hDL (fun V i j => E r (V i j) i j) h3
    rw [d3] at c4
    simp only [c3] at c4
    rw [contentsT_bind _ _ h2 h3 L e3, contentsT_bind _ _ h3 h4 () e4,
      finishH_run L s3 idx test h4 (fun i j => E r (LS.setSelf idx .pinf (fun i j => h.cell (D i j)) i j) i j) c4]
    simp only [hr]
    rfl

theorem sampleCore_keeps {b n s : ℕ} (D : Arr n s) (idx : Fin s → Fin n) (test : Option (Σ t : ℕ, Fin t → Fin n))
    (R : (Fin n → Fin s → XR ℝ) → Py (Fin n → XR ℝ)) (E : (Fin n → XR ℝ) → XR ℝ → Fin n → Fin s → XR ℝ) :
    Keeps b (fun _ => True) (do
      let D ← copy D
      storeSamples D idx .pinf
      let V ← read D
      let r ← lift (R V)
      let L ← new (fun _ _ => .fin 0)
      fillRows (SNN.rowsOf test) D L (fun V i j => E r (V i j) i j)
      finishH L idx test) :=
  Keeps.bind (Keeps.copy D) fun D' hD => Keeps.bind (Keeps.storeSamples D' hD.2 _ _) fun _ _ => Keeps.bind (Keeps.read _) fun _ _ =>
    Keeps.bind (Keeps.lift _) fun _ _ => Keeps.bind (Keeps.new _) fun L hL =>
    Keeps.bind (Keeps.fillRows _ _ L hL.2 _) fun _ _ => Keeps.finishH L hL.2 idx test

/-- `local_scaling_sample` computes in memory what it would if all values were immutable. -/
theorem C197_localScaling_sample (o : ArgPart (XR ℝ)) (k : ℤ) {n s : ℕ} (hs : s ≤ n) (D : Arr n s) (idx : Fin s → Fin n)
    (test : Option (Σ t : ℕ, Fin t → Fin n)) (h : Mem (XR ℝ)) :
    contentsT (localScalingSampleH o k D idx test) h
      = LS.localScalingSample o (.mat false n s fun i j => h.cell (D i j)) k "distance" (some ⟨s, fun j => ((idx j).val : ℤ)⟩)
        (test.map fun t => ⟨t.1, fun a => ((t.2 a).val : ℤ)⟩) := by
  have hs' : ¬ s > n := by omega
  refine (sampleCore_run D idx test h (fun V => Np.tabulateM (fun i => LS.partAt o (V i) (k - 1)))
    (fun r x i j => LS.entry "distance" x (r i) (r (idx j)))).trans ?_
  unfold LS.localScalingSample
  simp only [LS.checkSample, hs', if_false, dif_pos, bind, Except.bind, MPEmp.wrapAll_val, Fin.cast_eq_self]
  rfl

/-- `local_scaling_sample` changes nothing that was in memory before the call. -/
theorem C196_localScaling_sample (o : ArgPart (XR ℝ)) (k : ℤ) {n s : ℕ} (D : Arr n s) (idx : Fin s → Fin n)
    (test : Option (Σ t : ℕ, Fin t → Fin n)) (h : Mem (XR ℝ)) (c : Addr) (hc : c.1 < h.next) :
    (localScalingSampleH o k D idx test h).2.cell c = h.cell c :=
  (sampleCore_keeps D idx test (fun V => Np.tabulateM (fun i => LS.partAt o (V i) (k - 1)))
    (fun r x i j => LS.entry "distance" x (r i) (r (idx j))) h le_rfl).2.1 c hc

/-- `nicdm_sample` computes in memory what it would if all values were immutable. -/
theorem C197_nicdm_sample (o : ArgPart (XR ℝ)) (k : ℕ) {n s : ℕ} (hs : s ≤ n) (hk : k ≤ s) (D : Arr n s) (idx : Fin s → Fin n)
    (test : Option (Σ t : ℕ, Fin t → Fin n)) (h : Mem (XR ℝ)) :
    contentsT (nicdmSampleH o k D idx test) h
      = LS.nicdmSample o (.mat false n s fun i j => h.cell (D i j)) k "distance" (some ⟨s, fun j => ((idx j).val : ℤ)⟩)
        (test.map fun t => ⟨t.1, fun a => ((t.2 a).val : ℤ)⟩) := by
  have hs' : ¬ s > n := by omega
  have hk' : ¬ s < k := by omega
  refine (sampleCore_run D idx test h (fun V => Np.tabulateM (fun i => LS.meanRadius o (V i) k))
    (fun r x i j => LS.nicdmEntry (LS.geomean r) x (r i) (r (idx j)))).trans ?_
  unfold LS.nicdmSample
  simp only [LS.checkSample, hs', hk', if_false, dif_pos, bind, Except.bind, MPEmp.wrapAll_val, Fin.cast_eq_self]
  rfl

/-- `nicdm_sample` changes nothing that was in memory before the call. -/
theorem C196_nicdm_sample (o : ArgPart (XR ℝ)) (k : ℕ) {n s : ℕ} (D : Arr n s) (idx : Fin s → Fin n)
    (test : Option (Σ t : ℕ, Fin t → Fin n)) (h : Mem (XR ℝ)) (c : Addr) (hc : c.1 < h.next) :
    (nicdmSampleH o k D idx test h).2.cell c = h.cell c :=
  (sampleCore_keeps D idx test (fun V => Np.tabulateM (fun i => LS.meanRadius o (V i) k))
    (fun r x i j => LS.nicdmEntry (LS.geomean r) x (r i) (r (idx j))) h le_rfl).2.1 c hc

end HubToolbox.Heap
