import Verif.Rounding.Format
import Verif.LS.Model

/-!
# Local Scaling and NICDM with rounding

As in `Verif/LS/Model.lean`, with all results of arithmetic operations rounded. The rounding `R` is that of the type of the
distance matrix. Simplification: worker processes share arrays of float64, so for `n_jobs > 1` the model is that of
float64 matrices.
-/

set_option autoImplicit false

namespace HubToolbox.Rounding

/-- The functions of numpy as computed (any approximation of the true functions), and `np.sum`, which adds in an order of
its own. -/
structure Lib where
  exp : XR ℝ → XR ℝ
  log : XR ℝ → XR ℝ
  sqrt : XR ℝ → XR ℝ
  sum : List (XR ℝ) → XR ℝ

/-- What is assumed of these functions: the range of exponential function and square root. -/
structure Lib.Ok (L : Lib) : Prop where
  exp_nan : L.exp .nan = .nan
  exp_nonpos : ∀ a, a ≤ .fin 0 → ∃ y, L.exp a = .fin y ∧ 0 ≤ y ∧ y ≤ 1
  exp_nonneg : ∀ a, .fin 0 ≤ L.exp a
  sqrt_nonneg : ∀ a, .fin 0 ≤ L.sqrt a
  sqrt_zero : L.sqrt (.fin 0) = .fin 0
  sum_one : ∀ a, L.sum [a] = a

/-- One secondary value (`/repo/hub_toolbox/local_scaling.py` lines 166-169, 281-287). -/
noncomputable def lsEntry (R : Rounding ℝ) (L : Lib) (metric : String) (d ri rj : XR ℝ) : XR ℝ :=
  let e := L.exp (R.div (R.mul (.fin (-1)) (R.mul d d)) (R.mul ri rj))
  if metric = "similarity" then e else R.sub (.fin 1) e

/-- `tmp` of row `i`, indexed by column (only columns `≥ i` are used). -/
noncomputable def lsRow (R : Rounding ℝ) (L : Lib) (metric : String) {n : ℕ} (D : Fin n → Fin n → XR ℝ) (r : Fin n → XR ℝ)
    (i : Fin n) : Fin n → XR ℝ :=
  fun j => if j = i then LS.selfTmp metric else R.lsEntry L metric (D i j) (r i) (r j)

/-- Single process second phase (`/repo/hub_toolbox/local_scaling.py` lines 275-291). -/
noncomputable def lsSerial (R : Rounding ℝ) (L : Lib) (metric : String) {n : ℕ} (D : Fin n → Fin n → XR ℝ)
    (r : Fin n → XR ℝ) : Fin n → Fin n → XR ℝ :=
  let M := (List.finRange n).foldl (fun (M : Fin n → Fin n → XR ℝ) (i : Fin n) =>
    Np.setRowFrom M i i.val (fun j => R.up (R.lsRow L metric D r i j))) (fun _ _ => .fin 0)
  fun i j => R.add (M i j) (M j i)

/-- The cells written by the task of row `i` (`/repo/hub_toolbox/local_scaling.py` lines 170-171). -/
noncomputable def lsWrites (R : Rounding ℝ) (L : Lib) (metric : String) {n : ℕ} (D : Fin n → Fin n → XR ℝ)
    (r : Fin n → XR ℝ) (i : Fin n) : List ((Fin n × Fin n) × XR ℝ) :=
  let js := (List.finRange n).filter (fun (j : Fin n) => decide (i ≤ j))
  js.map (fun j => ((i, j), R.up (R.lsRow L metric D r i j))) ++ js.map (fun j => ((j, i), R.up (R.lsRow L metric D r i j)))

/-- Worker pool of the second phase (`/repo/hub_toolbox/local_scaling.py` lines 292-303). -/
noncomputable def lsParallel (R : Rounding ℝ) (L : Lib) (w : LS.World) (metric : String) {n : ℕ}
    (D : Fin n → Fin n → XR ℝ) (r : Fin n → XR ℝ) : Fin n → Fin n → XR ℝ :=
  let mem := Sched.exec (fun _ : Fin n × Fin n => (.fin 0 : XR ℝ))
    (w.sched ((List.finRange n).flatMap (fun (i : Fin n) => R.lsWrites L metric D r i)))
  fun i j => mem (i, j)

/-- `local_scaling` for a dense square matrix after the argument checks
(`/repo/hub_toolbox/local_scaling.py` lines 224-311). -/
noncomputable def lsCore (R : Rounding ℝ) (L : Lib) (w : LS.World) {n : ℕ} (D : Fin n → Fin n → XR ℝ) (k : ℤ)
    (metric : String) (test : Option (List ℤ)) (nJobs : ℤ) : Py (Fin n → Fin n → XR ℝ) := do
  let kth := LS.kthOf metric n k
  let train := LS.trainInd n test
  let D := Np.fillDiagonal D (LS.exclude metric)
  let r ← if LS.jobs w nJobs > 1 then LS.radiiParallel w D train kth else LS.radiiSerial w.part D train kth
  if LS.jobs w nJobs = 1 then
    pure (Np.fillDiagonal (R.lsSerial L metric D r) (LS.selfValue metric))
  else if LS.jobs w nJobs > 1 then
    pure (Np.fillDiagonal (R.lsParallel L w metric D r) (LS.selfValue metric))
  else throw .unboundLocalError

/-- `local_scaling` (`/repo/hub_toolbox/local_scaling.py` lines 174-311). -/
noncomputable def localScaling (R : Rounding ℝ) (L : Lib) (w : LS.World) (D : PyMat (XR ℝ)) (k : ℤ) (metric : String)
    (test : Option (List ℤ)) (nJobs : ℤ) : Py (Σ n : ℕ, Fin n → Fin n → XR ℝ) := do
  let (sp, ⟨n, D⟩) ← D.checkSquare
  checkValidMetric metric
  if sp then
    if metric = "similarity" then throw .indexError else throw .notImplementedError
  let M ← R.lsCore L w D k metric test nJobs
  pure ⟨n, M⟩

/-! ### NICDM -/

/-- `np.partition(d, kth=np.arange(k))[:k].mean()` (`/repo/hub_toolbox/local_scaling.py` lines 420-421, 517-518). -/
noncomputable def meanRadius (R : Rounding ℝ) (L : Lib) (o : ArgPart (XR ℝ)) {m : ℕ} (d : Fin m → XR ℝ) (k : ℕ) :
    Py (XR ℝ) := do
  let (p, pos) ← Np.argpartition o d (Np.arange 0 k)
  pure (R.div (L.sum (List.ofFn (fun c : Fin k => d (p (pos c))))) (R.ofNat k))

/-- `knn.mean(axis=1)` for all rows (`/repo/hub_toolbox/local_scaling.py` lines 517-518). -/
noncomputable def meanRadiiSerial (R : Rounding ℝ) (L : Lib) (o : ArgPart (XR ℝ)) {n : ℕ} (D : Fin n → Fin n → XR ℝ)
    (train : List (Fin n)) (k : ℕ) : Py (Fin n → XR ℝ) :=
  match Np.wrapAll train.length (Np.arange 0 k) with
  | none => .error .valueError
  | some _ => Np.tabulateM (fun i => R.meanRadius L o (LS.cols D train i) k)

/-- Workers `_nicdm_calculate_r` (`/repo/hub_toolbox/local_scaling.py` lines 419-422, 496-506). -/
noncomputable def meanRadiiParallel (R : Rounding ℝ) (L : Lib) (w : LS.World) {n : ℕ} (D : Fin n → Fin n → XR ℝ)
    (train : List (Fin n)) (k : ℕ) : Py (Fin n → XR ℝ) := do
  let rows ← Np.tabulateM (fun i => R.meanRadius L w.part (LS.cols D train i) k)
  pure (Sched.exec (fun _ : Fin n => (.fin 0 : XR ℝ))
    (w.sched ((List.finRange n).map (fun (i : Fin n) => (i, rows i)))))

/-- `_local_geomean` (`/repo/hub_toolbox/local_scaling.py` lines 530-531). -/
noncomputable def geomean (R : Rounding ℝ) (L : Lib) {n : ℕ} (r : Fin n → XR ℝ) : XR ℝ :=
  L.exp (R.div (L.sum (List.ofFn (fun i => L.log (r i)))) (R.ofNat n))

/-- `(r_geom * d) / np.sqrt(ri * rj)` (`/repo/hub_toolbox/local_scaling.py` lines 426, 525). -/
noncomputable def nicdmEntry (R : Rounding ℝ) (L : Lib) (g d ri rj : XR ℝ) : XR ℝ :=
  R.div (R.mul g d) (L.sqrt (R.mul ri rj))

/-- Single process second phase of `nicdm` (`/repo/hub_toolbox/local_scaling.py` lines 521-526). -/
noncomputable def nicdmSerial (R : Rounding ℝ) (L : Lib) {n : ℕ} (g : XR ℝ) (D : Fin n → Fin n → XR ℝ) (r : Fin n → XR ℝ) :
    Fin n → Fin n → XR ℝ :=
  let M := (List.finRange n).foldl (fun (M : Fin n → Fin n → XR ℝ) (i : Fin n) =>
    Np.setRowFrom M i (i.val + 1) (fun j => R.nicdmEntry L g (D i j) (r i) (r j))) (fun _ _ => .fin 0)
  fun i j => R.add (M i j) (M j i)

/-- The cells written by `_nicdm_calculate_sec_dist` for row `i`
(`/repo/hub_toolbox/local_scaling.py` lines 424-429). -/
noncomputable def nicdmWrites (R : Rounding ℝ) (L : Lib) {n : ℕ} (g : XR ℝ) (D : Fin n → Fin n → XR ℝ) (r : Fin n → XR ℝ)
    (i : Fin n) : List ((Fin n × Fin n) × XR ℝ) :=
  let js := (List.finRange n).filter (fun (j : Fin n) => decide (i < j))
  js.map (fun j => ((i, j), R.nicdmEntry L g (D i j) (r i) (r j))) ++
    js.map (fun j => ((j, i), R.nicdmEntry L g (D i j) (r i) (r j)))

/-- Worker pool of the second phase of `nicdm` (`/repo/hub_toolbox/local_scaling.py` lines 507-515). -/
noncomputable def nicdmParallel (R : Rounding ℝ) (L : Lib) (w : LS.World) {n : ℕ} (g : XR ℝ) (D : Fin n → Fin n → XR ℝ)
    (r : Fin n → XR ℝ) : Fin n → Fin n → XR ℝ :=
  let mem := Sched.exec (fun _ : Fin n × Fin n => (.fin 0 : XR ℝ))
    (w.sched ((List.finRange n).flatMap (fun (i : Fin n) => R.nicdmWrites L g D r i)))
  fun i j => mem (i, j)

/-- `nicdm` for a dense square matrix after the checks (`/repo/hub_toolbox/local_scaling.py` lines 485-528). -/
noncomputable def nicdmCore (R : Rounding ℝ) (L : Lib) (w : LS.World) {n : ℕ} (D : Fin n → Fin n → XR ℝ) (k : ℕ)
    (test : Option (List ℤ)) (nJobs : ℤ) : Py (Fin n → Fin n → XR ℝ) := do
  let train := LS.trainInd n test
  let D := Np.fillDiagonal D .pinf
  if LS.jobs w nJobs > 1 then
    let r ← R.meanRadiiParallel L w D train k
    pure (R.nicdmParallel L w (R.geomean L r) D r)
  else
    let r ← R.meanRadiiSerial L w.part D train k
    pure (R.nicdmSerial L (R.geomean L r) D r)

/-- `nicdm` (`/repo/hub_toolbox/local_scaling.py` lines 431-528), for non-negative `k`. -/
noncomputable def nicdm (R : Rounding ℝ) (L : Lib) (w : LS.World) (D : PyMat (XR ℝ)) (k : ℕ) (metric : String)
    (test : Option (List ℤ)) (nJobs : ℤ) : Py (Σ n : ℕ, Fin n → Fin n → XR ℝ) := do
  let (sp, ⟨n, D⟩) ← D.checkSquare
  checkValidMetric metric
  if metric = "similarity" then throw .notImplementedError
  if sp then throw .indexError
  let M ← R.nicdmCore L w D k test nJobs
  pure ⟨n, M⟩

/-- The true functions. -/
noncomputable def Lib.real : Lib := ⟨XR.exp, XR.log, XR.sqrt, fun l => l.foldl XR.add (.fin 0)⟩

end HubToolbox.Rounding
