import Verif.Approx.KMeansModel

/-!
# Model of `hub_toolbox/approximate.py`, part 3: sampling, empirical Mutual Proximity, sparse result

Points are elements of an arbitrary type `P`; `dist` stands for `euclidean_distances(.., squared=True)` or
`cosine_distances` of scikit-learn, which are trusted to compute finite distances entry by entry.
-/

set_option autoImplicit false

namespace HubToolbox.Approx

variable {K : Type} [Field K] [LinearOrder K]

/-- `sampling_algorithm` with fixed vantage points: `'random'`, `'kmeans++'` or `None` (all objects). -/
inductive Sampling
  | random | kmeanspp | all
  deriving DecidableEq

/-- What is outside of the code. `shuffle` are the test indices of `ShuffleSplit` or `StratifiedShuffleSplit`, which are
`k` different ones out of `n`. -/
structure World (K : Type) [Field K] [LinearOrder K] where
  shuffle : ∀ {n k : ℕ}, k < n → Fin k → Fin n
  shuffle_inj : ∀ {n k : ℕ} (h : k < n), Function.Injective (shuffle h)
  rand : Rand K
  trials : ℕ → ℕ
  trials_pos : ∀ k, 0 < trials k
  sched : ∀ {A : Type}, List (A × XR K) → List (A × XR K)
  sched_perm : ∀ {A : Type} (l : List (A × XR K)), (sched l).Perm l

/-- The vantage points (`/repo/hub_toolbox/approximate.py` lines 552-601 and 870-880). `test_size=n_samples` must be
smaller than the number of objects, otherwise scikit-learn raises `ValueError` (for the stratified split this is caught
in line 570, but the second attempt raises again). `trials` is the default `n_local_trials` of `kmeanspp`. -/
def vantage (w : World K) {n : ℕ} (d : Fin n → Fin n → K) (metric : String) (smp : Sampling) (nSamples : ℕ) :
    Py (List (Fin n)) :=
  match smp with
  | .random => if h : nSamples < n then .ok (List.ofFn (w.shuffle h)) else .error .valueError
  | .kmeanspp => kmeanspp d metric nSamples (some w.rand) (w.trials nSamples)
  | .all => .ok (List.finRange n)

/-- One row of secondary distances (`/repo/hub_toolbox/approximate.py` lines 213-218 and 984-990): `dI` is broadcast along
the rows of `dJ = D_train` and compared with the column `d = dI.T`. -/
def mpRow {s : ℕ} (nPts : ℕ) (dTrain : Fin s → Fin s → XR K) (dI : Fin s → XR K) (j : Fin s) : K :=
  1 - (Np.countTrue (fun x => decide (XR.flt (dI j) (dI x)) && decide (XR.flt (dI j) (dTrain j x))) : K) / nPts

/-- Secondary distances to fixed vantage points, in this process or by worker processes writing to shared memory
(`/repo/hub_toolbox/approximate.py` lines 964-1006). -/
def mpMatrix (w : World K) (nJobs : ℤ) (nPts : ℕ) {t s : ℕ} (dTrain : Fin s → Fin s → XR K)
    (dTest : Fin t → Fin s → XR K) : Fin t → Fin s → XR K :=
  let dTrain := Np.fillDiagonal dTrain .pinf
  if nJobs = 1 then fun i j => .fin (mpRow nPts dTrain (dTest i) j)
  else
    let mem := Sched.exec (fun _ : Fin t × Fin s => (.fin 0 : XR K))
      (w.sched ((List.finRange t).flatMap (fun (i : Fin t) => (List.finRange s).map (fun (j : Fin s) =>
        ((i, j), .fin (mpRow nPts dTrain (dTest i) j))))))
    fun i j => mem (i, j)

/-- `_sparse_distance_matrix` (`/repo/hub_toolbox/approximate.py` lines 522-539): conversion of coordinate format to csr
adds values with the same coordinates. -/
def toSparse {t s n : ℕ} (D : Fin t → Fin s → XR K) (ind : Fin t → Fin s → Fin n) (i : Fin t) (x : Fin n) : XR K :=
  ((List.finRange s).filter (fun c => decide (ind i c = x))).foldl (fun (acc : XR K) (c : Fin s) => XR.add acc (D i c))
    (.fin 0)

/-- Result of `transform`: the vantage points `ind_test_`, the secondary distances `sec_dist_` and `sec_dist_sparse_`. -/
structure Out (K : Type) (t n : ℕ) where
  ind : List (Fin n)
  dist : Fin t → Fin ind.length → XR K
  sparse : Fin t → Fin n → XR K

/-- `SuQHR(hr_algorithm='MP', ..).fit(X).transform(T)` for fixed vantage points
(`/repo/hub_toolbox/approximate.py` lines 866-898, 963-1007 and 522-539). Without sampling `n_samples` is overwritten with
the number of objects and the dense matrix is stored as `sec_dist_sparse_`. -/
def suqhrMP {P : Type} (w : World K) (dist : String → P → P → K) (metric : String) (smp : Sampling) (nSamples : ℕ)
    (nJobs : ℤ) {n t : ℕ} (X : Fin n → P) (T : Fin t → P) : Py (Out K t n) := do
  let ind ← vantage w (fun i j => dist metric (X i) (X j)) metric smp nSamples
  if metric ≠ "sqeuclidean" ∧ metric ≠ "cosine" then throw .valueError
  let nPts := if smp = .all then n else nSamples
  let D := mpMatrix w nJobs nPts (fun a b => .fin (dist metric (X (ind.get a)) (X (ind.get b))))
    (fun i b => .fin (dist metric (T i) (X (ind.get b))))
  pure ⟨ind, D, toSparse D (fun _ c => ind.get c)⟩

/-! ### Approximate neighbours -/

/-- The answer of an index to a query for `k` neighbours: indices and distances, nearest first. -/
abbrev Answer (K : Type) (n : ℕ) := List (Fin n × K)

/-- One padded row (`/repo/hub_toolbox/approximate.py` lines 644-649 and 667-671): the neighbours found, then the last
index and the largest distance of the answer. An empty answer raises `IndexError` (simplification: in line 644 it is a
`ValueError` if `k > 1`). The library returns at most as many neighbours as requested. -/
def padRow {n : ℕ} (k : ℕ) (found answer : Answer K n) : Py (Fin k → Fin n × K) :=
  match answer.getLast?, Np.amax (answer.map (fun p => (.fin p.2 : XR K))) with
  | some (last, _), some (.fin m) => .ok (fun c => found.getD c.val (last, m))
  | _, _ => .error .indexError

/-- `_hnsw_filtering` (`/repo/hub_toolbox/approximate.py` lines 603-656): of `k + 1` neighbours the first is dropped.
`post` is the final transformation of distances (squaring for `'sqeuclidean'`). Simplification: an index is identified
with its answers. -/
def hnswFit {n : ℕ} (query : Fin n → ℕ → Answer K n) (post : K → K) (k : ℕ) : Py (Fin n → Fin k → Fin n × K) :=
  Np.tabulateM (fun i => do
    let a := query i (k + 1)
    let row ← padRow k a.tail a
    pure (fun c => ((row c).1, post (row c).2)))

/-- `_hnsw_trafo` (`/repo/hub_toolbox/approximate.py` lines 658-677). -/
def hnswTrafo {n t : ℕ} (query : Fin t → ℕ → Answer K n) (post : K → K) (k : ℕ) : Py (Fin t → Fin k → Fin n × K) :=
  Np.tabulateM (fun i => do
    let a := query i k
    let row ← padRow k a a
    pure (fun c => ((row c).1, post (row c).2)))

/-- `_mp_hnsw` (`/repo/hub_toolbox/approximate.py` lines 171-187): the secondary distance of neighbour number `j` of test
object with neighbours `row`; `train` are the neighbours of all training objects. -/
def mpHnsw {n k : ℕ} (train : Fin n → Fin k → Fin n × K) (row : Fin k → Fin n × K) (j : Fin k) : K :=
  let d := (row j).2
  let t := (row j).1
  let indX := ((List.finRange k).take (j.val + 1)).map (fun c => (row c).1)
  let thresh := Np.searchRight (fun c => (train t c).2) d
  let indT := ((List.finRange k).take thresh).map (fun c => (train t c).1)
  let mpInd := (List.finRange n).filter (fun x => decide (x ∉ indX ++ indT))
  1 - (mpInd.length : K) / n

/-- `SuQHR(hr_algorithm='MP', sampling_algorithm='hnsw', n_samples=k).fit(X).transform(T)`
(`/repo/hub_toolbox/approximate.py` lines 884-886, 904-922): `ind_test_` and `sec_dist_`. The order in which the worker
processes fill disjoint rows is irrelevant and not modelled here. -/
def suqhrHnsw {n t : ℕ} (trainQuery : Fin n → ℕ → Answer K n) (testQuery : Fin t → ℕ → Answer K n) (post : K → K)
    (k : ℕ) : Py (Fin t → Fin k → Fin n × K) := do
  let train ← hnswFit trainQuery post k
  let test ← hnswTrafo testQuery post k
  pure (fun i j => ((test i j).1, mpHnsw train (test i) j))

end HubToolbox.Approx
