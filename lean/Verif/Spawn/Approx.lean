import Verif.Spawn.Props
import Verif.Approx.Hnsw

/-!
# C243: approximate Mutual Proximity and the start method of worker processes

`SuQHR(hr_algorithm='MP')` in parallel, and with HNSW for any number of processes: the array for the results is handed to the
workers as `numpy` array on top of shared memory, which spawned processes receive as a copy.
-/

set_option autoImplicit false

namespace HubToolbox.Spawn

open HubToolbox HubToolbox.Approx

variable {K : Type} [Field K] [LinearOrder K]

/-- Secondary distances to fixed vantage points with `n_jobs > 1` (`/repo/hub_toolbox/approximate.py` lines 77-93, 206-218,
991-1005), see `Approx.mpMatrix`. -/
def mpMatrix (p : Pool) (w : World K) (nPts : ℕ) {t s : ℕ} (dTrain : Fin s → Fin s → XR K) (dTest : Fin t → Fin s → XR K) :
    Fin t → Fin s → XR K :=
  let dTrain := Np.fillDiagonal dTrain .pinf
  let mem := p.exec .ndarray (fun _ : Fin t × Fin s => (.fin 0 : XR K))
    (w.sched ((List.finRange t).flatMap (fun (i : Fin t) => (List.finRange s).map (fun (j : Fin s) =>
      ((i, j), .fin (mpRow nPts dTrain (dTest i) j))))))
  fun i j => mem (i, j)

/-- `SuQHR(hr_algorithm='MP', n_jobs > 1, ..).fit(X).transform(T)` for fixed vantage points
(`/repo/hub_toolbox/approximate.py` lines 866-898, 963-1007 and 522-539), see `Approx.suqhrMP`. -/
def suqhrMP {P : Type} (p : Pool) (w : World K) (dist : String → P → P → K) (metric : String) (smp : Sampling) (nSamples : ℕ)
    {n t : ℕ} (X : Fin n → P) (T : Fin t → P) : Py (Out K t n) := do
  let ind ← vantage w (fun i j => dist metric (X i) (X j)) metric smp nSamples
  if metric ≠ "sqeuclidean" ∧ metric ≠ "cosine" then throw .valueError
  let nPts := if smp = .all then n else nSamples
  let D := mpMatrix p w nPts (fun a b => .fin (dist metric (X (ind.get a)) (X (ind.get b))))
    (fun i b => .fin (dist metric (T i) (X (ind.get b))))
  pure ⟨ind, D, toSparse D (fun _ c => ind.get c)⟩

/-- `SuQHR(hr_algorithm='MP', sampling_algorithm='hnsw', n_samples=k).fit(X).transform(T)`
(`/repo/hub_toolbox/approximate.py` lines 77-93, 171-187, 884-886, 904-922), see `Approx.suqhrHnsw`. Worker processes are
used for any `n_jobs`. -/
def suqhrHnsw (p : Pool) (w : World K) {n t : ℕ} (trainQuery : Fin n → ℕ → Answer K n) (testQuery : Fin t → ℕ → Answer K n)
    (post : K → K) (k : ℕ) : Py (Fin t → Fin k → Fin n × XR K) := do
  let train ← hnswFit trainQuery post k
  let test ← hnswTrafo testQuery post k
  let mem := p.exec .ndarray (fun _ : Fin t × Fin k => (.fin 0 : XR K))
    (w.sched ((List.finRange t).flatMap (fun (i : Fin t) => (List.finRange k).map (fun (j : Fin k) =>
      ((i, j), .fin (mpHnsw train (test i) j))))))
  pure (fun i j => ((test i j).1, mem (i, j)))

/-! ### Forked processes -/

theorem mpMatrix_fork (p : Pool) (hp : p.start = .fork) (w : World K) (nPts : ℕ) {t s : ℕ} (dTrain : Fin s → Fin s → XR K)
    (dTest : Fin t → Fin s → XR K) (nJobs : ℤ) (hj : nJobs ≠ 1) :
    mpMatrix p w nPts dTrain dTest = Approx.mpMatrix w nJobs nPts dTrain dTest := by
  unfold mpMatrix Approx.mpMatrix
  simp only [exec_shared p _ (fork_shared p hp _), if_neg hj]

/-- **C243** for forked processes and fixed vantage points: what a single process computes. -/
theorem C243_fixed_fork_partial {P : Type} (p : Pool) (hp : p.start = .fork) (w : World K) (dist : String → P → P → K)
    (metric : String) (smp : Sampling) (nSamples : ℕ) {n t : ℕ} (X : Fin n → P) (T : Fin t → P) :
    suqhrMP p w dist metric smp nSamples X T = Approx.suqhrMP w dist metric smp nSamples 1 X T := by
  have h : ∀ {t s : ℕ} (nPts : ℕ) (dTrain : Fin s → Fin s → XR K) (dTest : Fin t → Fin s → XR K),
      mpMatrix p w nPts dTrain dTest = Approx.mpMatrix w 1 nPts dTrain dTest := by
    intro t s nPts dTrain dTest
    rw [mpMatrix_fork p hp w nPts dTrain dTest 2 (by norm_num), mpMatrix_eq, mpMatrix_eq]
  unfold suqhrMP Approx.suqhrMP
  simp only [h]

/-- **C243** for forked processes and HNSW: the model which does not mention processes. -/
theorem C243_hnsw_fork_partial (p : Pool) (hp : p.start = .fork) (w : World K) {n t : ℕ} (trainQuery : Fin n → ℕ → Answer K n)
    (testQuery : Fin t → ℕ → Answer K n) (post : K → K) (k : ℕ) :
    suqhrHnsw p w trainQuery testQuery post k =
      (Approx.suqhrHnsw trainQuery testQuery post k).map (fun M i j => ((M i j).1, .fin (M i j).2)) := by
  unfold suqhrHnsw Approx.suqhrHnsw
  simp only [exec_shared p _ (fork_shared p hp _)]
  cases h1 : hnswFit trainQuery post k with
  | error e => rfl
  | ok train =>
    cases h2 : hnswTrafo testQuery post k with
    | error e => rfl
    | ok test =>
      simp only [bind, Except.bind, pure, Except.pure, Except.map]
      congr 1
      funext i j
      congr 1
      refine Sched.exec_of_consistent _ _ _ _ ?_ ?_
      · rw [(w.sched_perm _).mem_iff, List.mem_flatMap]
        exact ⟨i, List.mem_finRange i, List.mem_map.2 ⟨j, List.mem_finRange j, rfl⟩⟩
      · intro x hx hxa
        rw [(w.sched_perm _).mem_iff, List.mem_flatMap] at hx
        obtain ⟨i', _, hx⟩ := hx
        obtain ⟨j', _, rfl⟩ := List.mem_map.1 hx
        obtain ⟨rfl, rfl⟩ := Prod.mk.inj hxa
        rfl

/-! ### Spawned processes -/

/-- **C243** is violated (fixed vantage points): with spawned processes all secondary distances are zero, while a single process
returns positive ones for the same vantage points, whatever the data. -/
theorem C243_fixed_violated [IsStrictOrderedRing K] {P : Type} (p : Pool) (hp : p.start = .spawn) (w : World K)
    (dist : String → P → P → K) (metric : String) (smp : Sampling) (nSamples : ℕ) {n t : ℕ} (X : Fin n → P) (T : Fin t → P)
    (out : Out K t n) (h : Approx.suqhrMP w dist metric smp nSamples 1 X T = .ok out) :
    suqhrMP p w dist metric smp nSamples X T = .ok ⟨out.ind, fun _ _ => .fin 0, fun _ _ => .fin 0⟩ ∧
      ∀ i j, ∃ v, out.dist i j = .fin v ∧ 0 < v := by
  obtain ⟨hv, hm, -, -⟩ := suqhrMP_char w dist metric smp nSamples 1 X T out h
  constructor
  · unfold suqhrMP mpMatrix
    rw [hv]
    have hm' : ¬ (metric ≠ "sqeuclidean" ∧ metric ≠ "cosine") := by
      rcases hm with h | h <;> simp [h]
    simp only [exec_copies p _ (spawn_copies p hp), bind, Except.bind, if_neg hm', pure, Except.pure]
    congr 2
    funext i x
    unfold toSparse
    generalize (List.finRange out.ind.length).filter (fun c => decide (out.ind.get c = x)) = l
    induction l with
    | nil => rfl
    | cons c l ih =>
      rw [List.foldl_cons]
      simpa [XR.add] using ih
  · intro i j
    obtain ⟨v, hv, h1, -⟩ := C120_range w dist metric smp nSamples 1 X T out h i j
    refine ⟨v, hv, lt_of_lt_of_le ?_ h1⟩
    have : (0 : K) < out.ind.length := by exact_mod_cast lt_of_le_of_lt (Nat.zero_le _) j.isLt
    positivity

/-- **C243** is violated (HNSW): with spawned processes all secondary distances are zero even for `n_jobs=1`, while forked processes
return positive ones, whatever the index answers. -/
theorem C243_hnsw_violated [IsStrictOrderedRing K] (p p' : Pool) (hp : p.start = .spawn) (hp' : p'.start = .fork) (w : World K)
    {n t : ℕ} (trainQuery : Fin n → ℕ → Answer K n) (testQuery : Fin t → ℕ → Answer K n) (post : K → K) (k : ℕ)
    (out : Fin t → Fin k → Fin n × K) (h : Approx.suqhrHnsw trainQuery testQuery post k = .ok out) :
    suqhrHnsw p w trainQuery testQuery post k = .ok (fun i j => ((out i j).1, .fin 0)) ∧
      suqhrHnsw p' w trainQuery testQuery post k = .ok (fun i j => ((out i j).1, .fin (out i j).2)) ∧
      ∀ i j, 0 < (out i j).2 := by
  refine ⟨?_, ?_, ?_⟩
  · unfold Approx.suqhrHnsw at h
    unfold suqhrHnsw
    simp only [exec_copies p _ (spawn_copies p hp)]
    cases h1 : hnswFit trainQuery post k with
    | error e => rw [h1] at h; cases h
    | ok train =>
      rw [h1] at h
      cases h2 : hnswTrafo testQuery post k with
      | error e => rw [h2] at h; cases h
      | ok test =>
        rw [h2] at h
        cases h
        rfl
  · rw [C243_hnsw_fork_partial p' hp', h]
    rfl
  · intro i j
    refine lt_of_lt_of_le ?_ (C124_range trainQuery testQuery post out h i j).1
    have : (0 : K) < n := by exact_mod_cast lt_of_le_of_lt (Nat.zero_le _) (out i j).1.isLt
    positivity

/-- `C243_fixed_violated` applies to four points and one query. -/
example : ∃ out : Out ℚ 1 4, suqhrMP (turns .spawn) (plainWorld 0 le_rfl one_pos) sqd "sqeuclidean" .all 3
    (![0, 1, 4, 10] : Fin 4 → ℚ) (![2] : Fin 1 → ℚ) = .ok ⟨out.ind, fun _ _ => .fin 0, fun _ _ => .fin 0⟩ ∧
      ∀ i j, ∃ v, out.dist i j = .fin v ∧ 0 < v := by
  obtain ⟨out, h, -⟩ := of_okAnd (p := fun _ : Out ℚ 1 4 => true) (x := Approx.suqhrMP (plainWorld 0 le_rfl one_pos) sqd
      "sqeuclidean" .all 3 1 (![0, 1, 4, 10] : Fin 4 → ℚ) (![2] : Fin 1 → ℚ)) (by decide +kernel)
  exact ⟨out, C243_fixed_violated (turns .spawn) rfl _ _ _ _ _ _ _ out h⟩

/-- `C243_hnsw_violated` applies to an index with two objects. -/
example : ∃ out : Fin 1 → Fin 1 → Fin 2 × ℚ,
    suqhrHnsw (turns .spawn) (plainWorld 0 le_rfl one_pos) (fun i _ => [(i, 0), (i + 1, 3)] : Fin 2 → ℕ → Answer ℚ 2)
      (fun _ _ => [(1, 2)] : Fin 1 → ℕ → Answer ℚ 2) id 1 = .ok (fun i j => ((out i j).1, .fin 0)) ∧ ∀ i j, 0 < (out i j).2 := by
  obtain ⟨out, h, -⟩ := of_okAnd (p := fun _ : Fin 1 → Fin 1 → Fin 2 × ℚ => true)
    (x := Approx.suqhrHnsw (fun i _ => [(i, 0), (i + 1, 3)] : Fin 2 → ℕ → Answer ℚ 2)
      (fun _ _ => [(1, 2)] : Fin 1 → ℕ → Answer ℚ 2) id 1) (by decide +kernel)
  obtain ⟨h1, -, h2⟩ := C243_hnsw_violated (turns .spawn) (turns .fork) rfl rfl (plainWorld 0 le_rfl one_pos) _ _ _ _ out h
  exact ⟨out, h1, h2⟩

end HubToolbox.Spawn
