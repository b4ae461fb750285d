import Verif.XRArith
import Verif.Sched

/-!
# Model of `hub_toolbox/local_scaling.py`
-/

set_option autoImplicit false

namespace HubToolbox

/-- A loop over rows which may raise: the first exception wins. -/
def Np.tabulateM {α : Type} : ∀ {n : ℕ}, (Fin n → Py α) → Py (Fin n → α)
  | 0, _ => .ok Fin.elim0
  | _ + 1, f => do
    let a ← f 0
    let b ← Np.tabulateM (fun i => f i.succ)
    pure (Fin.cons a b)

namespace LS

/-- What is outside of the code: the number of CPUs, numpy's partial sort and the order in which worker
processes store their results in shared memory. -/
structure World where
  cpu : ℕ
  cpu_pos : 0 < cpu
  part : ArgPart (XR ℝ)
  sched : ∀ {A : Type}, List (A × XR ℝ) → List (A × XR ℝ)
  sched_perm : ∀ {A : Type} (l : List (A × XR ℝ)), (sched l).Perm l

/-- `train_ind` (`/repo/hub_toolbox/local_scaling.py` lines 248-251 and 490-493): all columns, or
`np.setdiff1d(np.arange(n), test_ind)`. -/
def trainInd (n : ℕ) (test : Option (List ℤ)) : List (Fin n) :=
  match test with
  | none => List.finRange n
  | some t => (List.finRange n).filter (fun (c : Fin n) => decide ((c.val : ℤ) ∉ t))

/-- `D[i, train_ind]`. -/
def cols {n m : ℕ} (D : Fin n → Fin m → XR ℝ) (train : List (Fin m)) (i : Fin n) : Fin train.length → XR ℝ :=
  fun c => D i (train.get c)

/-- `n_jobs` after lines 225-226 and 485-486 of `/repo/hub_toolbox/local_scaling.py`. -/
def jobs (w : World) (nJobs : ℤ) : ℤ := if nJobs = -1 then w.cpu else nJobs

/-- `kth` (`/repo/hub_toolbox/local_scaling.py` lines 228 and 238). -/
def kthOf (metric : String) (n : ℕ) (k : ℤ) : ℤ := if metric = "similarity" then (n : ℤ) - k else k - 1

/-- `exclude` (`/repo/hub_toolbox/local_scaling.py` lines 229 and 239). -/
def exclude (metric : String) : XR ℝ := if metric = "similarity" then .ninf else .pinf

/-- `self_tmp_value` (`/repo/hub_toolbox/local_scaling.py` lines 230 and 241). -/
def selfTmp (metric : String) : XR ℝ := if metric = "similarity" then .pinf else .fin 0

/-- `self_value` (`/repo/hub_toolbox/local_scaling.py` lines 231 and 240). -/
def selfValue (metric : String) : XR ℝ := if metric = "similarity" then .fin 1 else .fin 0

/-- `np.partition(d, kth=kth)[kth]` (`/repo/hub_toolbox/local_scaling.py` lines 109, 159, 273). -/
noncomputable def partAt (o : ArgPart (XR ℝ)) {m : ℕ} (d : Fin m → XR ℝ) (kth : ℤ) : Py (XR ℝ) := do
  let (p, pos) ← Np.argpartition o d (fun _ : Fin 1 => kth)
  pure (d (p (pos 0)))

/-- All radii at once (`/repo/hub_toolbox/local_scaling.py` line 273): a `kth` out of bounds raises even if there
is no row. -/
noncomputable def radiiSerial (o : ArgPart (XR ℝ)) {n : ℕ} (D : Fin n → Fin n → XR ℝ) (train : List (Fin n)) (kth : ℤ) :
    Py (Fin n → XR ℝ) :=
  match Np.wrap train.length kth with
  | none => .error .valueError
  | some _ => Np.tabulateM (fun i => partAt o (cols D train i) kth)

/-- Workers `_ls_calculate_r` storing into the shared array `r`
(`/repo/hub_toolbox/local_scaling.py` lines 157-160, 263-271). -/
noncomputable def radiiParallel (w : World) {n : ℕ} (D : Fin n → Fin n → XR ℝ) (train : List (Fin n)) (kth : ℤ) :
    Py (Fin n → XR ℝ) := do
  let rows ← Np.tabulateM (fun i => partAt w.part (cols D train i) kth)
  pure (Sched.exec (fun _ : Fin n => (.fin 0 : XR ℝ))
    (w.sched ((List.finRange n).map (fun (i : Fin n) => (i, rows i)))))

/-- One secondary value (`/repo/hub_toolbox/local_scaling.py` lines 166-169, 281-287):
`exp(-1 * d**2 / (ri * rj))` or one minus that. -/
noncomputable def entry (metric : String) (d ri rj : XR ℝ) : XR ℝ :=
  let e := XR.exp (XR.div (XR.mul (.fin (-1)) (XR.mul d d)) (XR.mul ri rj))
  if metric = "similarity" then e else XR.sub (.fin 1) e

/-- `tmp` of row `i`, indexed by column (only columns `≥ i` are used). -/
noncomputable def tmpRow (metric : String) {n : ℕ} (D : Fin n → Fin n → XR ℝ) (r : Fin n → XR ℝ) (i : Fin n) :
    Fin n → XR ℝ :=
  fun j => if j = i then selfTmp metric else entry metric (D i j) (r i) (r j)

/-- `D_ls += D_ls.T` on floats. -/
def addT {n : ℕ} (M : Fin n → Fin n → XR ℝ) : Fin n → Fin n → XR ℝ := fun i j => XR.add (M i j) (M j i)

/-- Single process second phase (`/repo/hub_toolbox/local_scaling.py` lines 275-291). -/
noncomputable def secSerial (metric : String) {n : ℕ} (D : Fin n → Fin n → XR ℝ) (r : Fin n → XR ℝ) :
    Fin n → Fin n → XR ℝ :=
  addT ((List.finRange n).foldl (fun (M : Fin n → Fin n → XR ℝ) (i : Fin n) =>
    Np.setRowFrom M i i.val (tmpRow metric D r i)) (fun _ _ => .fin 0))

/-- The cells written by the task of row `i` (`/repo/hub_toolbox/local_scaling.py` lines 170-171):
`D_ls[i, i:] = tmp` and `D_ls[i:, i] = tmp`. -/
noncomputable def secWrites (metric : String) {n : ℕ} (D : Fin n → Fin n → XR ℝ) (r : Fin n → XR ℝ) (i : Fin n) :
    List ((Fin n × Fin n) × XR ℝ) :=
  let js := (List.finRange n).filter (fun (j : Fin n) => decide (i ≤ j))
  js.map (fun j => ((i, j), tmpRow metric D r i j)) ++ js.map (fun j => ((j, i), tmpRow metric D r i j))

/-- Worker pool of the second phase (`/repo/hub_toolbox/local_scaling.py` lines 292-303). -/
noncomputable def secParallel (w : World) (metric : String) {n : ℕ} (D : Fin n → Fin n → XR ℝ) (r : Fin n → XR ℝ) :
    Fin n → Fin n → XR ℝ :=
  let mem := Sched.exec (fun _ : Fin n × Fin n => (.fin 0 : XR ℝ))
    (w.sched ((List.finRange n).flatMap (fun (i : Fin n) => secWrites metric D r i)))
  fun i j => mem (i, j)

/-- `local_scaling` for a dense square matrix after the argument checks
(`/repo/hub_toolbox/local_scaling.py` lines 224-311). With `n_jobs < 1` (other than `-1`) the radii are computed
in this process but the second phase takes the pool branch, where `r_ctype` is not defined. -/
noncomputable def core (w : World) {n : ℕ} (D : Fin n → Fin n → XR ℝ) (k : ℤ) (metric : String)
    (test : Option (List ℤ)) (nJobs : ℤ) : Py (Fin n → Fin n → XR ℝ) := do
  let kth := kthOf metric n k
  let train := trainInd n test
  let D := Np.fillDiagonal D (exclude metric)
  let r ← if jobs w nJobs > 1 then radiiParallel w D train kth else radiiSerial w.part D train kth
  if jobs w nJobs = 1 then
    pure (Np.fillDiagonal (secSerial metric D r) (selfValue metric))
  else if jobs w nJobs > 1 then
    pure (Np.fillDiagonal (secParallel w metric D r) (selfValue metric))
  else throw .unboundLocalError

/-- `local_scaling` (`/repo/hub_toolbox/local_scaling.py` lines 174-311).
`test` is an integer array (or boolean mask, whose values then count as 0 and 1).
Sparse matrices: distances raise `NotImplementedError`; for similarities `np.copy(D)` (line 246) yields a 0-d
object array, so `D[i, train_ind]` (line 255) raises `IndexError`. Simplification: a sparse `0 × 0` matrix and
`np.frombuffer` of an empty shared array are not treated separately. -/
noncomputable def localScaling (w : World) (D : PyMat (XR ℝ)) (k : ℤ) (metric : String)
    (test : Option (List ℤ)) (nJobs : ℤ) : Py (Σ n : ℕ, Fin n → Fin n → XR ℝ) := do
  let (sp, ⟨n, D⟩) ← D.checkSquare
  checkValidMetric metric
  if sp then
    if metric = "similarity" then throw .indexError else throw .notImplementedError
  let M ← core w D k metric test nJobs
  pure ⟨n, M⟩

/-! ### NICDM -/

/-- `np.partition(d, kth=np.arange(k))[:k].mean()` (`/repo/hub_toolbox/local_scaling.py` lines 383, 420-421,
517-518). -/
noncomputable def meanRadius (o : ArgPart (XR ℝ)) {m : ℕ} (d : Fin m → XR ℝ) (k : ℕ) : Py (XR ℝ) := do
  let (p, pos) ← Np.argpartition o d (Np.arange 0 k)
  pure (XR.mean (fun c : Fin k => d (p (pos c))))

/-- `knn.mean(axis=1)` for all rows (`/repo/hub_toolbox/local_scaling.py` lines 517-518). -/
noncomputable def meanRadiiSerial (o : ArgPart (XR ℝ)) {n : ℕ} (D : Fin n → Fin n → XR ℝ) (train : List (Fin n))
    (k : ℕ) : Py (Fin n → XR ℝ) :=
  match Np.wrapAll train.length (Np.arange 0 k) with
  | none => .error .valueError
  | some _ => Np.tabulateM (fun i => meanRadius o (cols D train i) k)

/-- Workers `_nicdm_calculate_r` (`/repo/hub_toolbox/local_scaling.py` lines 419-422, 496-506). -/
noncomputable def meanRadiiParallel (w : World) {n : ℕ} (D : Fin n → Fin n → XR ℝ) (train : List (Fin n))
    (k : ℕ) : Py (Fin n → XR ℝ) := do
  let rows ← Np.tabulateM (fun i => meanRadius w.part (cols D train i) k)
  pure (Sched.exec (fun _ : Fin n => (.fin 0 : XR ℝ))
    (w.sched ((List.finRange n).map (fun (i : Fin n) => (i, rows i)))))

/-- `_local_geomean` (`/repo/hub_toolbox/local_scaling.py` lines 530-531). -/
noncomputable def geomean {n : ℕ} (r : Fin n → XR ℝ) : XR ℝ :=
  XR.exp (XR.div (XR.sum (fun i => XR.log (r i))) (.fin (n : ℝ)))

/-- `(r_geom * d) / np.sqrt(ri * rj)` (`/repo/hub_toolbox/local_scaling.py` lines 426, 525). -/
noncomputable def nicdmEntry (g d ri rj : XR ℝ) : XR ℝ := XR.div (XR.mul g d) (XR.sqrt (XR.mul ri rj))

/-- Single process second phase of `nicdm` (`/repo/hub_toolbox/local_scaling.py` lines 521-526). -/
noncomputable def nicdmSerial {n : ℕ} (g : XR ℝ) (D : Fin n → Fin n → XR ℝ) (r : Fin n → XR ℝ) :
    Fin n → Fin n → XR ℝ :=
  addT ((List.finRange n).foldl (fun (M : Fin n → Fin n → XR ℝ) (i : Fin n) =>
    Np.setRowFrom M i (i.val + 1) (fun j => nicdmEntry g (D i j) (r i) (r j))) (fun _ _ => .fin 0))

/-- The cells written by `_nicdm_calculate_sec_dist` for row `i`
(`/repo/hub_toolbox/local_scaling.py` lines 424-429). -/
noncomputable def nicdmWrites {n : ℕ} (g : XR ℝ) (D : Fin n → Fin n → XR ℝ) (r : Fin n → XR ℝ) (i : Fin n) :
    List ((Fin n × Fin n) × XR ℝ) :=
  let js := (List.finRange n).filter (fun (j : Fin n) => decide (i < j))
  js.map (fun j => ((i, j), nicdmEntry g (D i j) (r i) (r j))) ++
    js.map (fun j => ((j, i), nicdmEntry g (D i j) (r i) (r j)))

/-- Worker pool of the second phase of `nicdm` (`/repo/hub_toolbox/local_scaling.py` lines 507-515). -/
noncomputable def nicdmParallel (w : World) {n : ℕ} (g : XR ℝ) (D : Fin n → Fin n → XR ℝ) (r : Fin n → XR ℝ) :
    Fin n → Fin n → XR ℝ :=
  let mem := Sched.exec (fun _ : Fin n × Fin n => (.fin 0 : XR ℝ))
    (w.sched ((List.finRange n).flatMap (fun (i : Fin n) => nicdmWrites g D r i)))
  fun i j => mem (i, j)

/-- `nicdm` for a dense square matrix after the checks (`/repo/hub_toolbox/local_scaling.py` lines 485-528). -/
noncomputable def nicdmCore (w : World) {n : ℕ} (D : Fin n → Fin n → XR ℝ) (k : ℕ)
    (test : Option (List ℤ)) (nJobs : ℤ) : Py (Fin n → Fin n → XR ℝ) := do
  let train := trainInd n test
  let D := Np.fillDiagonal D .pinf
  if jobs w nJobs > 1 then
    let r ← meanRadiiParallel w D train k
    pure (nicdmParallel w (geomean r) D r)
  else
    let r ← meanRadiiSerial w.part D train k
    pure (nicdmSerial (geomean r) D r)

/-- `nicdm` (`/repo/hub_toolbox/local_scaling.py` lines 431-528), for non-negative `k`.
Sparse matrices: `np.copy(D)` (line 487) is a 0-d array, so `D.shape[0]` raises `IndexError`. -/
noncomputable def nicdm (w : World) (D : PyMat (XR ℝ)) (k : ℕ) (metric : String)
    (test : Option (List ℤ)) (nJobs : ℤ) : Py (Σ n : ℕ, Fin n → Fin n → XR ℝ) := do
  let (sp, ⟨n, D⟩) ← D.checkSquare
  checkValidMetric metric
  if metric = "similarity" then throw .notImplementedError
  if sp then throw .indexError
  let M ← nicdmCore w D k test nJobs
  pure ⟨n, M⟩

/-! ### Sample variants -/

/-- `io.check_sample_shape_fits(D, idx)` (`/repo/hub_toolbox/io.py` lines 109-124). `idx = none` is python's
`None` (or any other object which is not a 1-D array). -/
def checkSample {α : Type} (D : PyMat α) (idx : Option (Σ s : ℕ, Fin s → ℤ)) :
    Py (Σ n s : ℕ, (Fin n → Fin s → α) × (Fin s → ℤ)) :=
  match D, idx with
  | .mat false n s a, some ⟨s', v⟩ =>
    if s > n then .error .valueError
    else if h : s = s' then .ok ⟨n, s, a, fun j => v (j.cast h)⟩
    else .error .typeError
  | _, _ => .error .typeError

/-- `for j, sample in enumerate(train_ind): M[sample, j] = v`
(`/repo/hub_toolbox/local_scaling.py` lines 98-99, 136-137, 379-380, 398-399). -/
def setSelf {α : Type} {n s : ℕ} (idx : Fin s → Fin n) (v : α) (M : Fin n → Fin s → α) : Fin n → Fin s → α :=
  (List.finRange s).foldl (fun (M : Fin n → Fin s → α) (j : Fin s) =>
    fun a b => if a = idx j ∧ b = j then v else M a b) M

/-- `M[i, :] = row` for the rows `n_ind`, in this order. -/
def fillRows {K : Type} [Zero K] {n s : ℕ} (rows : List (Fin n)) (f : Fin n → Fin s → XR K) :
    Fin n → Fin s → XR K :=
  rows.foldl (fun (M : Fin n → Fin s → XR K) (i : Fin n) => Function.update M i (f i)) (fun _ _ => .fin 0)

/-- The self distances at the end and the selection of the test rows
(`/repo/hub_toolbox/local_scaling.py` lines 128-138, 394-400). `f` computes one entry. -/
def finish {n s : ℕ} (idx : Fin s → Fin n) (f : Fin n → Fin s → XR ℝ) (test : Option (Σ t : ℕ, Fin t → ℤ)) :
    Py (Σ t s : ℕ, Fin t → Fin s → XR ℝ) :=
  match test with
  | none => .ok ⟨n, s, Np.fillDiagonal (fillRows (List.finRange n) f) (.fin 0)⟩
  | some ⟨t, tidx⟩ =>
    match Np.wrapAll n tidx with
    | none => .error .indexError
    | some tidx => .ok ⟨t, s, fun r => setSelf idx (.fin 0) (fillRows (List.ofFn tidx) f) (tidx r)⟩

/-- `local_scaling_sample` (`/repo/hub_toolbox/local_scaling.py` lines 24-138). The check in line 70 rejects a
missing `train_ind` and sparse matrices, and similarities with `train_ind` raise `NotImplementedError`, so only
the dense distance branch remains. -/
noncomputable def localScalingSample (o : ArgPart (XR ℝ)) (D : PyMat (XR ℝ)) (k : ℤ) (metric : String)
    (idx : Option (Σ s : ℕ, Fin s → ℤ)) (test : Option (Σ t : ℕ, Fin t → ℤ)) :
    Py (Σ t s : ℕ, Fin t → Fin s → XR ℝ) := do
  let ⟨n, _, D, idx⟩ ← checkSample D idx
  checkValidMetric metric
  if metric = "similarity" then throw .notImplementedError
  match Np.wrapAll n idx with
  | none => throw .indexError
  | some idx =>
    let D := setSelf idx .pinf D
    let r ← Np.tabulateM (fun i => partAt o (D i) (k - 1))
    finish idx (fun i j => entry metric (D i j) (r i) (r (idx j))) test

/-- `nicdm_sample` (`/repo/hub_toolbox/local_scaling.py` lines 313-400), for non-negative `k`. The partition
of the whole array (line 383) raises `ValueError` for a `k` which is too large. -/
noncomputable def nicdmSample (o : ArgPart (XR ℝ)) (D : PyMat (XR ℝ)) (k : ℕ) (metric : String)
    (idx : Option (Σ s : ℕ, Fin s → ℤ)) (test : Option (Σ t : ℕ, Fin t → ℤ)) :
    Py (Σ t s : ℕ, Fin t → Fin s → XR ℝ) := do
  let ⟨n, s, D, idx⟩ ← checkSample D idx
  checkValidMetric metric
  if metric = "similarity" then throw .notImplementedError
  match Np.wrapAll n idx with
  | none => throw .indexError
  | some idx =>
    if s < k then throw .valueError
    let D := setSelf idx .pinf D
    let r ← Np.tabulateM (fun i => meanRadius o (D i) k)
    finish idx (fun i j => nicdmEntry (geomean r) (D i j) (r i) (r (idx j))) test

end LS
end HubToolbox
