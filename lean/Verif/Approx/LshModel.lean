import Verif.Approx.MPModel

/-!
# Model of `hub_toolbox/approximate.py`, part 5: locality-sensitive hashing

The index of FALCONN is identified with its answers: `query` to `find_k_nearest_neighbors` (at most as many indices as
requested), `near` to `find_near_neighbors`.
-/

set_option autoImplicit false

namespace HubToolbox.Approx

variable {K : Type} [Field K] [LinearOrder K]

/-- Distances written into a row, on top of what was in `memory` (`/repo/hub_toolbox/approximate.py` lines 717-722,
128-139, 756-765, 153-164). -/
def lshVal {n k : ℕ} (memory : Fin k → XR K) (d : Option (Fin n → K)) (knn : List (Fin n)) (c : Fin k) : XR K :=
  match d, knn[c.val]? with
  | some d, some x => .fin (d x)
  | _, _ => memory c

/-- One row of indices and distances (`/repo/hub_toolbox/approximate.py` lines 715-725 or 125-142 for training objects,
754-769 or 151-168 for test objects): the neighbours `knn` with their distances `d`, then the last index and the largest
value in the row, which is that in `memory` for the cells not written so far. `d = none` means that distances are not
written at all (unknown metric). -/
def lshRow {n : ℕ} (k : ℕ) (memory : Fin k → XR K) (d : Option (Fin n → K)) (knn : List (Fin n)) :
    Py (Fin k → Fin n × XR K) :=
  if k < knn.length then .error .valueError
  else match knn.getLast? with
    | none => .error (if d.isSome then .valueError else .indexError)
    | some last =>
      match Np.amax ((List.finRange k).map (lshVal memory d knn)) with
      | none => .error .valueError
      | some m => .ok (fun c => match knn[c.val]? with
        | some x => (x, lshVal memory d knn c)
        | none => (last, m))

/-- `_lsh_filtering` (`/repo/hub_toolbox/approximate.py` lines 679-742 and 118-142): of `k + 1` neighbours the first is
dropped. With one process the matrices are created by `np.empty`, so that they contain what happened to be in `memory`;
with more processes they are zero. An empty answer is an array of floats which cannot be used as index. -/
def lshFit {P : Type} {n : ℕ} (dist : String → P → P → K) (metric : String) (nJobs : ℤ) (k : ℕ)
    (memory : Fin n → Fin k → XR K) (query : Fin n → ℕ → List (Fin n)) (X : Fin n → P) : Py (Fin n → Fin k → Fin n × XR K) :=
  Np.tabulateM (fun i =>
    let answer := query i (k + 1)
    let known := metric = "sqeuclidean" ∨ metric = "cosine"
    if answer = [] then .error .indexError
    else if nJobs = 1 then
      lshRow k (memory i) (if known then some (fun x => dist metric (X i) (X x)) else none) answer.tail
    else
      lshRow k (fun _ => .fin 0) (some (fun x => dist (if known then metric else "sqeuclidean") (X i) (X x))) answer.tail)

/-- `_lsh_trafo` (`/repo/hub_toolbox/approximate.py` lines 744-786 and 145-168). -/
def lshTrafo {P : Type} {n t : ℕ} (dist : String → P → P → K) (metric : String) (nJobs : ℤ) (k : ℕ)
    (memory : Fin t → Fin k → XR K) (query : Fin t → ℕ → List (Fin n)) (X : Fin n → P) (T : Fin t → P) :
    Py (Fin t → Fin k → Fin n × XR K) :=
  Np.tabulateM (fun i =>
    let answer := query i k
    let known := metric = "sqeuclidean" ∨ metric = "cosine"
    if answer = [] then .error .indexError
    else if nJobs = 1 then
      if known then lshRow k (memory i) (some (fun x => dist metric (T i) (X x))) answer else .error .valueError
    else
      lshRow k (fun _ => .fin 0) (some (fun x => dist (if known then metric else "sqeuclidean") (T i) (X x))) answer)

/-- `_mp_lsh` (`/repo/hub_toolbox/approximate.py` lines 190-205 and 934-947): one secondary distance. -/
def mpLsh {P : Type} {n : ℕ} (near : P → XR K → List (Fin n)) (X : Fin n → P) (x : P) (row : Fin n × XR K) : K :=
  let d := row.2
  let t := X row.1
  let mpInd := (List.finRange n).filter (fun y => decide (y ∉ near x d ++ near t d))
  1 - (mpInd.length : K) / n

/-- `SuQHR(hr_algorithm='MP', sampling_algorithm='lsh', n_samples=k).fit(X).transform(T)`
(`/repo/hub_toolbox/approximate.py` lines 887-889, 923-962): `ind_test_` and `sec_dist_`. -/
def suqhrLshMP {P : Type} {n t : ℕ} (dist : String → P → P → K) (metric : String) (nJobs : ℤ) (k : ℕ)
    (memTrain : Fin n → Fin k → XR K) (memTest : Fin t → Fin k → XR K) (trainQuery : Fin n → ℕ → List (Fin n))
    (testQuery : Fin t → ℕ → List (Fin n)) (near : P → XR K → List (Fin n)) (X : Fin n → P) (T : Fin t → P) :
    Py (Fin t → Fin k → Fin n × K) := do
  let _ ← lshFit dist metric nJobs k memTrain trainQuery X
  let test ← lshTrafo dist metric nJobs k memTest testQuery X T
  pure (fun i j => ((test i j).1, mpLsh near X (T i) (test i j)))

end HubToolbox.Approx
