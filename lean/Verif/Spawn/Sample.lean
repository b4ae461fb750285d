import Verif.Spawn.Props
import Verif.SNN.SimhubProps
import Verif.SNN.Sample
import Verif.Cent.Localized
import Verif.Cent.Weighted
import Verif.HubClass.Model

/-!
# C236: further parallel functions and the start method of worker processes

`snn_sample`, `simhubIN`, `localized_centering` and the class `Hubness`.
-/

set_option autoImplicit false

namespace HubToolbox.Spawn

open HubToolbox

/-! ### Models -/

section
variable {K : Type} [Field K] [LinearOrder K]

/-- All entries of the rows `rows`, stored by worker processes (`/repo/hub_toolbox/shared_neighbors.py` lines 41-49, 140-143,
323-335, 444-453); see `SNN.rowsParallel`. -/
def rowsPool (p : Pool) (w : SNN.World K) {n s : ℕ} (rows : List (Fin n)) (f : Fin p.size → Fin n → Fin s → XR K) :
    Fin n → Fin s → XR K :=
  let mem := p.result .ndarray (fun _ : Fin n × Fin s => (.fin 0 : XR K))
    (w.sched (rows.flatMap (fun (i : Fin n) => (List.finRange s).map (fun j => ((i, j), fun u => f u i j)))))
  fun i j => mem (i, j)

/-- `snn_sample` with `n_jobs > 1` (`/repo/hub_toolbox/shared_neighbors.py` lines 26-168), see `SNN.snnSample`. Both phases are done
by the same worker processes. -/
def snnSample (p : Pool) (w : SNN.World K) (D : PyMat (XR K)) (k : ℤ) (metric : String)
    (idx : Option (Σ s : ℕ, Fin s → ℤ)) (test : Option (Σ t : ℕ, Fin t → ℤ)) : Py (Σ t s : ℕ, Fin t → Fin s → XR K) := do
  let ⟨n, s, D, idx⟩ ← LS.checkSample D idx
  checkValidMetric metric
  match Np.wrapAll n idx with
  | none => throw .indexError
  | some idx =>
    let D := LS.setSelf idx (SNN.exclude metric) D
    let sel : Fin n → List (Fin s) := fun i => SNN.top metric (w.srt.run (D i)) k
    let test ← SNN.wrapTest n test
    let S : Fin n → Fin s → XR K := rowsPool p w (SNN.rowsOf test) (fun u i j =>
      SNN.entry metric k (SNN.overlap (marks p w sel u i) (marks p w sel u (idx j))))
    match test with
    | none => pure ⟨n, s, Np.fillDiagonal S (SNN.selfValue metric)⟩
    | some ⟨t, v⟩ => pure ⟨t, s, fun a => LS.setSelf idx (SNN.selfValue metric) S (v a)⟩
end

/-- What the main process knows of the neighbourhoods after the first pool of `simhubIN`
(`/repo/hub_toolbox/shared_neighbors.py` lines 303-314, 409-418). -/
def marksMain {K : Type} [LinearOrder K] (p : Pool) (w : SNN.World K) {n m : ℕ} (sel : Fin n → List (Fin m)) : Fin n → Fin m → Bool :=
  let mem := p.exec .ndarray (fun _ : Fin n × Fin m => false)
    (w.sched ((List.finRange n).flatMap (fun (i : Fin n) => (sel i).map (fun c => ((i, c), true)))))
  fun i c => mem (i, c)

/-- `simhubIN` with `n_jobs > 1` (`/repo/hub_toolbox/shared_neighbors.py` lines 303-482), see `SNN.simhubIN`. The neighbourhoods are
found by one pool and used by another one. -/
noncomputable def simhubIN (p : Pool) (w : SNN.World ℝ) (D : PyMat (XR ℝ)) (idx : Option (Σ s : ℕ, Fin s → ℤ))
    (test : Option (Σ t : ℕ, Fin t → ℤ)) (s : ℤ) (returnDist : Bool) : Py (Σ t m : ℕ, Fin t → Fin m → XR ℝ) := do
  let (sp, ⟨n, m, D, idx⟩) ← SNN.shiCheck D idx
  let (D, idx) ← SNN.shiExclude sp D idx
  if h : m ≤ n then
    let sel : Fin n → List (Fin m) := fun i => SNN.top "distance" (w.srt.run (D i)) s
    let knn := marksMain p w sel
    let In : Fin m → XR ℝ := fun j => SNN.informativeness m (SNN.occIN knn j)
    let test ← SNN.wrapTest n test
    let f : Fin n → Fin m → XR ℝ := fun i j => SNN.shared (knn i) (knn (SNN.partner h (decide (m < 2000)) idx j)) In
    let S := rowsPool p w (SNN.rowsOf test) (fun _ => f)
    pure (SNN.shiFinish S (XR.mul (.fin (s : ℝ)) (XR.log (.fin (m : ℝ)))) returnDist test)
  else throw .valueError

/-- The local affinities with `n_jobs > 1` (`/repo/hub_toolbox/centering.py` lines 173-186, 259-269), see `Cent.affinities`. -/
noncomputable def affinities (p : Pool) (w : SNN.World ℝ) (kappa : ℤ) {l m : ℕ} (W : Fin l → Fin m → ℝ) : Py (Fin l → XR ℝ) := do
  let A ← Np.tabulateM (fun i => do
    let nn ← Cent.lastOf w.part kappa (fun j => .fin (∑ f, W i f * W j f))
    pure (XR.sum (fun f => XR.mul (.fin (W i f)) (Cent.rowsMean W nn f))))
  pure (p.exec .ndarray (fun _ : Fin l => (.fin 0 : XR ℝ)) (w.sched ((List.finRange l).map (fun (i : Fin l) => (i, A i)))))

/-- `localized_centering` with `n_jobs > 1` (`/repo/hub_toolbox/centering.py` lines 188-281), see `Cent.localizedCentering`. -/
noncomputable def localizedCentering (p : Pool) (w : SNN.World ℝ) {n m : ℕ} (X : Fin n → Fin m → ℝ)
    (Y : Option (Σ l m' : ℕ, Fin l → Fin m' → ℝ)) (kappa : ℤ) (gamma : ℝ) : Py (Σ l : ℕ, Fin n → Fin l → XR ℝ) :=
  let Y : Σ l m' : ℕ, Fin l → Fin m' → ℝ := Y.getD ⟨n, m, X⟩
  if h : m = Y.2.1 then do
    let V := Cent.unit X
    let W : Fin Y.1 → Fin m → ℝ := fun j f => Cent.unit Y.2.2 j (f.cast h)
    let A ← affinities p w kappa W
    let A := if gamma ≠ 1 ∧ ∀ j, ¬ XR.flt (A j) (.fin 0) then (fun j => Cent.powNN (A j) gamma) else A
    pure ⟨Y.1, fun i j => XR.sub (.fin (∑ f, V i f * W j f)) (A j)⟩
  else throw .valueError

/-- The worker pool branch of `Hubness._k_neighbors` (`/repo/hub_toolbox/hubness.py` lines 32-58, 511-532), see
`HubClass.parallelNN`. -/
def parallelNN {K : Type} [LinearOrder K] (p : Pool) (o : ArgPart (XR K)) {n m : ℕ} (start k bs : ℕ)
    (sched : List ((Fin n × Fin k) × ℕ) → List ((Fin n × Fin k) × ℕ)) (d : Fin n → Fin m → XR K) : Py (Fin n → Fin k → ℕ) := do
  let tasks ← (List.range (HubClass.nBatches n bs)).mapM (fun i => HubClass.batch o start k bs i d)
  let writes := tasks.flatten.flatMap (fun w => (List.finRange k).map (fun c => ((w.1, c), w.2 c)))
  let mem := p.exec .ndarray (fun _ => 0) (sched writes)
  pure (fun i c => mem (i, c))

/-! ### Forked processes -/

section
variable {K : Type} [Field K] [LinearOrder K]

theorem rowsPool_fork (p : Pool) (hp : p.start = .fork) (w : SNN.World K) {n s : ℕ} (rows : List (Fin n))
    (g : Fin p.size → Fin n → Fin s → XR K) (f : Fin n → Fin s → XR K) (hg : ∀ u, g u = f) :
    rowsPool p w rows g = SNN.rowsParallel w rows f := by
  rw [SNN.rowsParallel_eq]
  funext i j
  rw [LS.fillRows_apply]
  unfold rowsPool
  have hmem : ∀ x : (Fin n × Fin s) × (Fin p.size → XR K),
      x ∈ w.sched (rows.flatMap (fun (i : Fin n) => (List.finRange s).map (fun j => ((i, j), fun u => g u i j)))) ↔
        ∃ i ∈ rows, ∃ j, x = ((i, j), fun u => g u i j) := by
    intro x
    rw [(w.sched_perm _).mem_iff, List.mem_flatMap]
    constructor
    · rintro ⟨i, hi, h⟩
      obtain ⟨j, _, rfl⟩ := List.mem_map.1 h
      exact ⟨i, hi, j, rfl⟩
    · rintro ⟨i, hi, j, rfl⟩
      exact ⟨i, hi, List.mem_map.2 ⟨j, List.mem_finRange j, rfl⟩⟩
  rw [result_const p _ (fork_shared p hp _) _ _ (fun x => f x.1.1 x.1.2)]
  · by_cases h : i ∈ rows
    · rw [if_pos h]
      refine Sched.exec_of_consistent _ _ _ _ (List.mem_map.2 ⟨_, (hmem _).2 ⟨i, h, j, rfl⟩, rfl⟩) ?_
      intro x hx hxa
      obtain ⟨y, hy, rfl⟩ := List.mem_map.1 hx
      obtain ⟨i', _, j', rfl⟩ := (hmem y).1 hy
      obtain ⟨rfl, rfl⟩ := Prod.mk.inj hxa
      rfl
    · rw [if_neg h, Sched.exec_of_notMem]
      intro hx
      obtain ⟨x, hx, hxe⟩ := List.mem_map.1 hx
      obtain ⟨y, hy, rfl⟩ := List.mem_map.1 hx
      obtain ⟨i', hi', j', rfl⟩ := (hmem y).1 hy
      obtain ⟨rfl, rfl⟩ := Prod.mk.inj hxe
      exact h hi'
  · intro x hx u
    obtain ⟨i, _, j, rfl⟩ := (hmem x).1 hx
    simp only [hg]

/-- **C236** (`snn_sample`), for forked processes: what the model of one start method computes, so the results about it apply. -/
theorem C236_snnSample_fork_partial (p : Pool) (hp : p.start = .fork) (w : SNN.World K) (D : PyMat (XR K)) (k : ℤ) (metric : String)
    (idx : Option (Σ s : ℕ, Fin s → ℤ)) (test : Option (Σ t : ℕ, Fin t → ℤ)) (nJobs : ℤ) (hj : 1 < SNN.jobs w nJobs) :
    snnSample p w D k metric idx test = SNN.snnSample w D k metric idx test nJobs := by
  unfold snnSample SNN.snnSample
  simp only [gt_iff_lt, hj, if_true, marks_fork p hp]
  simp only [rowsPool_fork p hp w _ _ _ (fun _ => rfl)]
  rfl

theorem marksMain_fork (p : Pool) (hp : p.start = .fork) (w : SNN.World K) {n m : ℕ} (sel : Fin n → List (Fin m)) :
    marksMain p w sel = SNN.markParallel w sel := by
  unfold marksMain SNN.markParallel
  simp only [exec_shared p _ (fork_shared p hp _)]
end

/-- **C236** (`simhubIN`), for forked processes: what the model of one start method computes, so the results about it apply. -/
theorem C236_simhubIN_fork_partial (p : Pool) (hp : p.start = .fork) (w : SNN.World ℝ) (D : PyMat (XR ℝ))
    (idx : Option (Σ s : ℕ, Fin s → ℤ)) (test : Option (Σ t : ℕ, Fin t → ℤ)) (s : ℤ) (returnDist : Bool) (nJobs : ℤ)
    (hj : 1 < SNN.jobs w nJobs) :
    simhubIN p w D idx test s returnDist = SNN.simhubIN w D idx test s returnDist nJobs := by
  unfold simhubIN SNN.simhubIN
  simp only [gt_iff_lt, hj, if_true, marksMain_fork p hp]
  simp only [rowsPool_fork p hp w _ _ _ (fun _ => rfl)]

/-- **C236** (`localized_centering`), for forked processes: what the model of one start method computes, so the results about it apply. -/
theorem C236_localizedCentering_fork_partial (p : Pool) (hp : p.start = .fork) (w : SNN.World ℝ) {n m : ℕ} (X : Fin n → Fin m → ℝ)
    (Y : Option (Σ l m' : ℕ, Fin l → Fin m' → ℝ)) (kappa : ℤ) (gamma : ℝ) (nJobs : ℤ) (hj : 1 < SNN.jobs w nJobs) :
    localizedCentering p w X Y kappa gamma = Cent.localizedCentering w X Y kappa gamma nJobs := by
  unfold localizedCentering Cent.localizedCentering affinities Cent.affinities
  simp only [exec_shared p _ (fork_shared p hp _), gt_iff_lt, hj, if_true]

/-- **C236** (class `Hubness`), for forked processes: what the model of one start method computes, so the results about it apply. -/
theorem C236_parallelNN_fork_partial {K : Type} [LinearOrder K] (p : Pool) (hp : p.start = .fork) (o : ArgPart (XR K)) {n m : ℕ} (start k bs : ℕ)
    (sched : List ((Fin n × Fin k) × ℕ) → List ((Fin n × Fin k) × ℕ)) (d : Fin n → Fin m → XR K) :
    parallelNN p o start k bs sched d = HubClass.parallelNN o start k bs sched d := by
  unfold parallelNN HubClass.parallelNN
  simp only [exec_shared p _ (fork_shared p hp _)]

/-! ### Spawned processes -/

section
variable {K : Type} [Field K] [LinearOrder K]

theorem rowsPool_spawn (p : Pool) (hp : p.start = .spawn) (w : SNN.World K) {n s : ℕ} (rows : List (Fin n))
    (g : Fin p.size → Fin n → Fin s → XR K) : rowsPool p w rows g = fun _ _ => .fin 0 := by
  unfold rowsPool
  simp only [result_copies p _ (spawn_copies p hp)]

/-- **C236** (`snn_sample`) is violated: with spawned processes all distances are zero, whatever the data. -/
theorem C236_snnSample_blind (p : Pool) (hp : p.start = .spawn) (w : SNN.World K) {n s : ℕ} (hsn : s ≤ n) (D : Fin n → Fin s → XR K)
    (idx : Fin s → Fin n) (k : ℤ) :
    snnSample p w (.mat false n s D) k "distance" (some (LS.ints idx)) none = .ok ⟨n, s, fun _ _ => .fin 0⟩ ∧
      ∀ {t : ℕ} (test : Fin t → Fin n), snnSample p w (.mat false n s D) k "distance" (some (LS.ints idx)) (some (LS.ints test)) =
        .ok ⟨t, s, fun _ _ => .fin 0⟩ := by
  have hs : LS.checkSample (.mat false n s D) (some (LS.ints idx)) = .ok ⟨n, s, D, fun j => ((idx j).val : ℤ)⟩ := by
    simp [LS.checkSample, LS.ints, not_lt.2 hsn]
  have hself : (SNN.selfValue "distance" : XR K) = .fin 0 := rfl
  constructor
  · unfold snnSample
    rw [hs]
    change (match Np.wrapAll n (fun j => ((idx j).val : ℤ)) with | none => _ | some idx => _) = _
    rw [LS.wrapAll_val]
    simp only [SNN.wrapTest, rowsPool_spawn p hp]
    refine Eq.trans (b := Except.ok _) rfl ?_
    congr 3
    funext i j
    simp only [Np.fillDiagonal, hself, ite_self]
  · intro t test
    unfold snnSample
    rw [hs]
    change (match Np.wrapAll n (fun j => ((idx j).val : ℤ)) with | none => _ | some idx => _) = _
    rw [LS.wrapAll_val]
    simp only [SNN.wrapTest_ints, rowsPool_spawn p hp]
    refine Eq.trans (b := Except.ok _) rfl ?_
    congr 3
    funext a j
    rw [LS.setSelf_apply, hself, ite_self]
end

/-- **C236** (`snn_sample`) is violated: spawned processes yield zero where forked ones (and a single one) yield one. -/
theorem C236_violated_snnSample (p p' : Pool) (hp : p.start = .spawn) (hp' : p'.start = .fork) :
    ∃ (w : SNN.World ℚ) (D : Fin 4 → Fin 3 → XR ℚ) (idx : Fin 3 → Fin 4) (test : Fin 1 → Fin 4),
      snnSample p w (.mat false 4 3 D) 1 "distance" (some (LS.ints idx)) (some (LS.ints test)) =
        .ok ⟨1, 3, fun _ _ => .fin 0⟩ ∧
      snnSample p' w (.mat false 4 3 D) 1 "distance" (some (LS.ints idx)) (some (LS.ints test)) =
        .ok ⟨1, 3, fun _ j => .fin ((![1, 0, 1] : Fin 3 → ℚ) j)⟩ ∧
      SNN.snnSample w (.mat false 4 3 D) 1 "distance" (some (LS.ints idx)) (some (LS.ints test)) 1 =
        .ok ⟨1, 3, fun _ j => .fin ((![1, 0, 1] : Fin 3 → ℚ) j)⟩ := by
  have key : ∀ nJobs : ℤ, SNN.snnSample (SNN.revWorld ℚ) (.mat false 4 3 (fun i j => .fin (SNN.line4 i j.succ))) 1 "distance"
      (some (LS.ints (Fin.succ : Fin 3 → Fin 4))) (some (LS.ints (![0] : Fin 1 → Fin 4))) nJobs =
        .ok ⟨1, 3, fun _ j => .fin ((![1, 0, 1] : Fin 3 → ℚ) j)⟩ := by
    intro nJobs
    rw [SNN.sample_some (SNN.revWorld ℚ) (by norm_num) _ Fin.succ 1 "distance" (.inl rfl) (![0] : Fin 1 → Fin 4) nJobs]
    congr 3
    funext a j
    revert a j
    decide +kernel
  refine ⟨SNN.revWorld ℚ, fun i j => .fin (SNN.line4 i j.succ), Fin.succ, ![0],
    (C236_snnSample_blind p hp _ (by norm_num) _ _ 1).2 _, ?_, key 1⟩
  rw [C236_snnSample_fork_partial p' hp' _ _ _ _ _ _ 2 (by decide)]
  exact key 2

/-- **C236** (`simhubIN`) is violated: with spawned processes all distances are one, whatever the data. -/
theorem C236_simhubIN_blind (p : Pool) (hp : p.start = .spawn) (w : SNN.World ℝ) {n : ℕ} (hn : 2 ≤ n) (D : Fin n → Fin n → XR ℝ)
    (s : ℤ) (hs : s ≠ 0) :
    simhubIN p w (.mat false n n D) none none s true = .ok ⟨n, n, fun i j => .fin (if i = j then 0 else 1)⟩ := by
  have hc : SNN.shiCheck (.mat false n n D) none = .ok (false, ⟨n, n, D, none⟩) := by
    unfold SNN.shiCheck PyMat.checkSquare
    simp only [dif_pos rfl]
    rfl
  have hlog : Real.log (n : ℝ) ≠ 0 := (Real.log_pos (by exact_mod_cast hn)).ne'
  have hsr : (s : ℝ) ≠ 0 := by exact_mod_cast hs
  unfold simhubIN
  rw [hc]
  refine Eq.trans (b := if h : n ≤ n then _ else _) rfl ?_
  rw [dif_pos le_rfl]
  simp only [rowsPool_spawn p hp]
  refine Eq.trans (b := Except.ok _) rfl ?_
  have h1 : XR.mul (.fin (s : ℝ)) (XR.log (.fin (n : ℝ))) = .fin ((s : ℝ) * Real.log n) := by
    rw [SNN.log_fin (by omega)]
    rfl
  rw [h1, SNN.shiFinish_none_fin (fun _ _ => 0) _ (fun _ _ => rfl) _ (mul_ne_zero hsr hlog)]
  congr 3
  funext i j
  congr 1
  by_cases h : i = j <;> simp [h, Spec.orDistance]

/-- **C236** (`simhubIN`) is violated: two objects with a common neighbour which is not everybody's neighbour have a distance below one
with forked processes, and distance one with spawned ones. -/
theorem C236_violated_simhubIN (p p' : Pool) (hp : p.start = .spawn) (hp' : p'.start = .fork) (w : SNN.World ℝ) (hcpu : 1 < w.cpu)
    {n : ℕ} (D : Fin n → Fin n → XR ℝ) (x : Fin n → Fin n → ℝ) (hD : ∀ i j, i ≠ j → D i j = .fin (x i j)) (s : ℕ) (h1 : 1 ≤ s)
    (hs : s < n) (i j c e : Fin n) (hij : i ≠ j)
    (hN : ∀ N : Fin n → Finset (Fin n), (∀ i, Spec.IsHood (Spec.nearer "distance") (Finset.univ.erase i) (x i) s (N i)) →
      c ∈ N i ∧ c ∈ N j ∧ c ≠ e ∧ c ∉ N e) :
    ∃ M M' : Fin n → Fin n → ℝ, simhubIN p w (.mat false n n D) none none s true = .ok ⟨n, n, fun i j => .fin (M i j)⟩ ∧
      simhubIN p' w (.mat false n n D) none none s true = .ok ⟨n, n, fun i j => .fin (M' i j)⟩ ∧
      M i j = 1 ∧ M' i j < 1 := by
  have hn : 2 ≤ n := by omega
  obtain ⟨N, hhood, hM⟩ := SNN.C35_formula w D x hD s h1 hs true (-1)
  obtain ⟨hci, hcj, hce, hcN⟩ := hN N hhood
  refine ⟨_, fun i j => Spec.orDistance true (if i = j then 1 else
      Spec.simhub n s (Spec.occurrence Finset.univ N) (fun _ => 1) 1 (N i) (N j)),
    C236_simhubIN_blind p hp w hn D s (by exact_mod_cast (by omega : s ≠ 0)), ?_, if_neg hij, ?_⟩
  · rw [C236_simhubIN_fork_partial p' hp' w _ _ _ _ _ (-1) (by simp only [SNN.jobs, if_true]; exact_mod_cast hcpu), hM]
  · have hself : ∀ j, j ∉ N j := fun j hj => by
      have := (hhood j).sub hj
      simp at this
    have hpos := SNN.log_pos_of (show 1 < n by omega)
    have hsr : (0 : ℝ) < s := by exact_mod_cast h1
    have hocc : Spec.occurrence Finset.univ N c < n := by
      have hsub : Finset.univ.filter (fun i => c ∈ N i) ⊆ (Finset.univ.erase c).erase e := by
        intro i hi
        have hi := (Finset.mem_filter.1 hi).2
        refine Finset.mem_erase.2 ⟨?_, Finset.mem_erase.2 ⟨?_, Finset.mem_univ _⟩⟩
        · rintro rfl
          exact hcN hi
        · rintro rfl
          exact hself i hi
      have h := Finset.card_le_card hsub
      rw [Finset.card_erase_of_mem (Finset.mem_erase.2 ⟨hce.symm, Finset.mem_univ _⟩),
        Finset.card_erase_of_mem (Finset.mem_univ c), Finset.card_univ, Fintype.card_fin] at h
      unfold Spec.occurrence
      omega
    have hsum : 0 < ∑ x ∈ N i ∩ N j, Real.log ((n : ℝ) / Spec.occurrence Finset.univ N x) * 1 := by
      refine Finset.sum_pos' (fun x _ => ?_) ⟨c, Finset.mem_inter.2 ⟨hci, hcj⟩, ?_⟩
      · rw [mul_one]
        exact (SNN.inform_bounds (by omega) (SNN.occurrence_pos _ _ _) (SNN.occurrence_le N hself x)).1
      · rw [mul_one]
        refine Real.log_pos ?_
        rw [lt_div_iff₀ (by exact_mod_cast SNN.occurrence_pos _ _ _), one_mul]
        exact_mod_cast hocc
    simp only [if_neg hij, Spec.orDistance, if_true, Spec.simhub]
    have := div_pos hsum (mul_pos (mul_pos hsr hpos) one_pos)
    linarith

/-- **C236** (`localized_centering`) is violated: with spawned processes and a positive `gamma` nothing is centred, the result is the plain
cosine similarity. -/
theorem C236_localizedCentering_blind (p : Pool) (hp : p.start = .spawn) (w : SNN.World ℝ) {n l m : ℕ} (X : Fin n → Fin m → ℝ)
    (Y : Fin l → Fin m → ℝ) (k : ℕ) (h1 : 1 ≤ k) (hk : k ≤ l) (gamma : ℝ) (hg : 0 < gamma) :
    localizedCentering p w X (some ⟨l, m, Y⟩) k gamma = .ok ⟨l, fun i j => .fin (Spec.cosine (X i) (Y j))⟩ := by
  obtain ⟨nn, hnn, hN⟩ := Cent.nns_ok w k h1 hk Y
  have hA : affinities p w k (Cent.unit Y) = .ok (fun _ => .fin 0) := by
    unfold affinities
    have := Cent.tabulateM_congr_map (fun i => Cent.lastOf w.part k (fun j => (.fin (∑ f, Cent.unit Y i f * Cent.unit Y j f) : XR ℝ)))
      (fun i l => XR.sum (fun f => XR.mul (.fin (Cent.unit Y i f)) (Cent.rowsMean (Cent.unit Y) l f)))
    unfold Cent.nns at hnn
    simp only [bind, pure, Except.pure] at this ⊢
    rw [this, hnn]
    simp only [Except.map, Except.bind, exec_copies p _ (spawn_copies p hp)]
  unfold localizedCentering
  simp only [Option.getD_some, dif_pos, Fin.cast_eq_self]
  rw [show (fun (j : Fin l) (f : Fin m) => Cent.unit Y j f) = Cent.unit Y from rfl, hA]
  have hp0 := Cent.penalty_model (fun _ : Fin l => 0) gamma hg.le
  simp only [bind, Except.bind, pure, Except.pure]
  rw [hp0]
  have hpen : ∀ j : Fin l, Cent.penalty (fun _ : Fin l => 0) gamma j = 0 := by
    intro j
    unfold Cent.penalty
    rw [if_pos (fun _ => le_rfl), Real.zero_rpow hg.ne']
  simp only [hpen, Cent.unit_dot, Cent.sub_fin, sub_zero]

/-- **C236** (`localized_centering`) is violated as soon as a training vector has positive affinity: its column differs. -/
theorem C236_violated_localizedCentering (p p' : Pool) (hp : p.start = .spawn) (hp' : p'.start = .fork) (w : SNN.World ℝ)
    (hcpu : 1 < w.cpu) {n l m : ℕ} (X : Fin n → Fin m → ℝ) (Y : Fin l → Fin m → ℝ) (j : Fin l) (hj : Y j ≠ 0) (i : Fin n) :
    ∃ M M' : Fin n → Fin l → ℝ, localizedCentering p w X (some ⟨l, m, Y⟩) 1 1 = .ok ⟨l, fun i j => .fin (M i j)⟩ ∧
      localizedCentering p' w X (some ⟨l, m, Y⟩) 1 1 = .ok ⟨l, fun i j => .fin (M' i j)⟩ ∧ M i j ≠ M' i j := by
  have hl : 1 ≤ l := Nat.one_le_of_lt (lt_of_le_of_lt (Nat.zero_le _) j.isLt)
  obtain ⟨N, hN, hM⟩ := Cent.C87_formula w X Y 1 le_rfl hl 1 zero_le_one
  have h1 := C236_localizedCentering_blind p hp w X Y 1 le_rfl hl 1 one_pos
  rw [Nat.cast_one] at h1 hM
  refine ⟨_, fun i j => Spec.cosine (X i) (Y j) - Cent.penalty (fun j => Cent.meanCosine Y (N j) j) 1 j, h1, ?_, ?_⟩
  · rw [C236_localizedCentering_fork_partial p' hp' w _ _ _ _ (-1) (by simp only [SNN.jobs, if_true]; exact_mod_cast hcpu), hM]
  · intro h
    have hcos : Spec.cosine (Y j) (Y j) = 1 := by
      have := Cent.cosine_parallel (Y j) hj 1 1 one_pos one_pos
      simpa using this
    have hpen : Cent.penalty (fun j => Cent.meanCosine Y (N j) j) 1 j = Cent.meanCosine Y (N j) j := by
      unfold Cent.penalty
      split_ifs <;> simp
    obtain ⟨a, ha⟩ := Finset.card_eq_one.1 (hN j).card
    have hle : 1 ≤ Spec.cosine (Y j) (Y a) := by
      by_cases hja : j = a
      · rw [← hja, hcos]
      · have := (hN j).best a (by rw [ha]; exact Finset.mem_singleton_self a) j (Finset.mem_univ _)
          (by rw [ha, Finset.mem_singleton]; exact hja)
        simpa [Spec.nearer, hcos] using this
    have hmean : Cent.meanCosine Y (N j) j = Spec.cosine (Y j) (Y a) := by
      unfold Cent.meanCosine
      simp [ha]
    simp only [hpen, hmean] at h
    linarith

/-- **C236** (class `Hubness`) is violated: with spawned processes the first object is reported as the only neighbour of all. -/
theorem C236_class_blind {K : Type} [LinearOrder K] (p : Pool) (hp : p.start = .spawn) (o : ArgPart (XR K)) {n m : ℕ}
    (start k bs : ℕ) (sched : List ((Fin n × Fin k) × ℕ) → List ((Fin n × Fin k) × ℕ)) (d : Fin n → Fin m → XR K)
    (rows : Fin n → Fin k → ℕ) (h : parallelNN p o start k bs sched d = .ok rows) : rows = fun _ _ => 0 := by
  unfold parallelNN at h
  simp only [exec_copies p _ (spawn_copies p hp)] at h
  cases ht : (List.range (HubClass.nBatches n bs)).mapM (fun i => HubClass.batch o start k bs i d) with
  | error e => rw [ht] at h; cases h
  | ok t => rw [ht] at h; exact (Except.ok.inj h).symm

/-! ### Examples -/

/-- `C236_violated_simhubIN` applies to four objects of which the second is the nearest neighbour of the first and the third, but not of
the last, whose nearest neighbour is the third. -/
noncomputable example : ∃ M M' : Fin 4 → Fin 4 → ℝ,
    simhubIN (turns .spawn) Cent.worldR (.mat false 4 4 (fun i j => .fin (![![0, 1, 3, 9], ![1, 0, 2, 8], ![3, 2, 0, 6], ![9, 8, 6, 0]] i j)))
      none none 1 true = .ok ⟨4, 4, fun i j => .fin (M i j)⟩ ∧
    simhubIN (turns .fork) Cent.worldR (.mat false 4 4 (fun i j => .fin (![![0, 1, 3, 9], ![1, 0, 2, 8], ![3, 2, 0, 6], ![9, 8, 6, 0]] i j)))
      none none 1 true = .ok ⟨4, 4, fun i j => .fin (M' i j)⟩ ∧ M 0 2 = 1 ∧ M' 0 2 < 1 := by
  refine C236_violated_simhubIN (turns .spawn) (turns .fork) rfl rfl Cent.worldR (by decide) _
    (![![0, 1, 3, 9], ![1, 0, 2, 8], ![3, 2, 0, 6], ![9, 8, 6, 0]]) (fun _ _ _ => rfl) 1 le_rfl (by norm_num) 0 2 1 3 (by decide) ?_
  intro N hN
  have key : ∀ i b : Fin 4, b ∈ Finset.univ.erase i →
      (∀ a ∈ (Finset.univ.erase i).erase b, ¬ Spec.nearer "distance"
        ((![![0, 1, 3, 9], ![1, 0, 2, 8], ![3, 2, 0, 6], ![9, 8, 6, 0]] : Fin 4 → Fin 4 → ℝ) i a)
        ((![![0, 1, 3, 9], ![1, 0, 2, 8], ![3, 2, 0, 6], ![9, 8, 6, 0]] : Fin 4 → Fin 4 → ℝ) i b)) → N i = {b} := by
    intro i b hb h
    obtain ⟨a, ha⟩ := Finset.card_eq_one.1 (hN i).card
    by_cases hab : b = a
    · rw [ha, hab]
    · have haN : a ∈ N i := by rw [ha]; exact Finset.mem_singleton_self a
      exact absurd ((hN i).best a haN b hb (by rw [ha, Finset.mem_singleton]; exact hab))
        (h a (Finset.mem_erase.2 ⟨fun e => hab e.symm, (hN i).sub haN⟩))
  have h0 : N 0 = {1} := key 0 1 (by decide) (by
    intro a ha
    fin_cases a <;> simp [Spec.nearer] at ha ⊢ <;> norm_num)
  have h2 : N 2 = {1} := key 2 1 (by decide) (by
    intro a ha
    fin_cases a <;> simp [Spec.nearer] at ha ⊢ <;> norm_num)
  have h3 : N 3 = {2} := key 3 2 (by decide) (by
    intro a ha
    fin_cases a <;> simp [Spec.nearer] at ha ⊢ <;> norm_num)
  rw [h0, h2, h3]
  decide

/-- `C236_violated_localizedCentering` applies to two vectors in the plane. -/
noncomputable example := C236_violated_localizedCentering (turns .spawn) (turns .fork) rfl rfl Cent.worldR (by decide)
  (![![1, 0], ![1, 1]] : Fin 2 → Fin 2 → ℝ) (![![1, 0], ![1, 1]] : Fin 2 → Fin 2 → ℝ) 1 (by intro h; have := congrFun h 0; simp at this) 0

/-- Three objects in batches of two: forked processes report the nearest objects, spawned ones always object `0`. -/
example : (parallelNN (turns .fork) (ArgPart.ofInsertion (XR ℚ)) 0 1 2 id
      (fun i j : Fin 3 => .fin (![![5, 1, 2], ![3, 4, 1], ![1, 2, 3]] i j))).map (fun r => (r 0 0, r 1 0, r 2 0)) = .ok (1, 2, 0) ∧
    (parallelNN (turns .spawn) (ArgPart.ofInsertion (XR ℚ)) 0 1 2 id
      (fun i j : Fin 3 => .fin (![![5, 1, 2], ![3, 4, 1], ![1, 2, 3]] i j))).map (fun r => (r 0 0, r 1 0, r 2 0)) = .ok (0, 0, 0) := by
  decide +kernel

end HubToolbox.Spawn
