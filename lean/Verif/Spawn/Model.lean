import Verif.Hubness.Model
import Verif.LS.Model
import Verif.SNN.Model
import Verif.Cent.Model
import Verif.MPEmp.Model

/-!
# Worker pools and the start method of `multiprocessing`

The parallel branches create an array in shared memory (`RawArray`), view it as numpy array (`np.frombuffer`) and hand this
array to the worker processes by `initargs`. Forked processes (Linux before Python 3.14) inherit the mapping. Processes
started by `spawn` (Windows, macOS) or `forkserver` get a pickled copy of a numpy array, and the shared memory itself only for
arguments which are `ctypes` arrays of `multiprocessing`. The models here are those of the parallel branches with this
difference; for forked processes they agree with the other models (`hubness_fork`, `localScaling_fork`, ...).
-/

set_option autoImplicit false

namespace HubToolbox.Spawn

open HubToolbox

/-- How worker processes are started; `spawn` includes `forkserver`. -/
inductive Start
  | fork | spawn
deriving DecidableEq

/-- What `initargs` contains for a result array: a numpy array, or the `ctypes` array of `multiprocessing`. -/
inductive Handed
  | ndarray | ctypes
deriving DecidableEq

/-- Worker processes. `who t` is the process which does the `t`-th store. -/
structure Pool where
  start : Start
  size : ℕ
  who : ℕ → Fin size

/-- An array in the memory shared by all processes, and the copies worker processes have of it. -/
structure Mem (P : ℕ) (A V : Type) where
  main : A → V
  copy : Fin P → A → V

section
variable {A V : Type} [DecidableEq A]

/-- Do the worker processes have copies? -/
def Pool.copies (p : Pool) (h : Handed) : Bool := decide (p.start = .spawn) && decide (h = .ndarray)

/-- One store by worker `w`. The value may depend on the memory of the worker. -/
def Pool.store (p : Pool) (h : Handed) (s : Mem p.size A V) (w : Fin p.size) (x : A × (Fin p.size → V)) : Mem p.size A V :=
  if p.copies h then { s with copy := Function.update s.copy w (Function.update (s.copy w) x.1 (x.2 w)) }
  else { s with main := Function.update s.main x.1 (x.2 w) }

/-- The initializer (for example `_hubness_load_shared_data`, `/repo/hub_toolbox/hubness.py` lines 61-65) and all stores of the
tasks of `pool.imap`. -/
def Pool.run (p : Pool) (h : Handed) (mem : A → V) (ws : List (A × (Fin p.size → V))) : Mem p.size A V :=
  (ws.zipIdx).foldl (fun s x => p.store h s (p.who x.2) x.1) ⟨mem, fun _ => mem⟩

/-- What the main process finds in its array afterwards. -/
def Pool.result (p : Pool) (h : Handed) (mem : A → V) (ws : List (A × (Fin p.size → V))) : A → V := (p.run h mem ws).main

/-- What worker `w` finds in its array afterwards. -/
def Pool.view (p : Pool) (h : Handed) (mem : A → V) (ws : List (A × (Fin p.size → V))) (w : Fin p.size) : A → V :=
  if p.copies h then (p.run h mem ws).copy w else (p.run h mem ws).main

/-- The same if the values do not depend on the worker. -/
def Pool.exec (p : Pool) (h : Handed) (mem : A → V) (ws : List (A × V)) : A → V :=
  p.result h mem (ws.map (fun x => (x.1, fun _ => x.2)))
end

/-! ### hubness -/

/-- The multiprocessing branch of `hubness` (`/repo/hub_toolbox/hubness.py` lines 61-92, 164-228), see `Hubness.parallel`. -/
noncomputable def hubnessParallel {K : Type} [LinearOrder K] [Zero K] (p : Pool) (o : ArgPart (XR K)) (rnd : Hubness.Rnd)
    (sched : Hubness.Schedule) {n m : ℕ} (sparse : Bool) (D : Fin n → Fin m → XR K) (k : ℤ)
    (metric : String) (nJobs : ℤ) (shuffle : Bool) : Py (Hubness.Res n) := do
  checkValidMetric metric
  let k := Hubness.reduceK k m
  if k < 0 then throw .valueError
  let k := k.toNat
  let dself : XR K := Hubness.dSelf metric
  let kth := Np.arange (Hubness.kthStart metric m k) k
  let D := Hubness.prepare sparse dself D
  if nJobs ≠ -1 ∧ nJobs < 1 then throw .valueError
  let rows ← (List.finRange n).foldlM (fun (R : Fin n → Fin k → ℕ) (i : Fin n) => do
      let row ← Hubness.selectRow o shuffle (rnd i m) kth (metric = "similarity") (Hubness.rowValues metric dself D i)
      pure (Function.update R i row)) (fun _ _ => 0)
  let shared := p.exec .ndarray (fun _ : Fin n × Fin k => 0)
    ((sched.cells n k).map (fun a => (a, rows a.1 a.2)))
  pure (Hubness.finish m (fun i c => shared (i, c)))

/-- `hubness` (`/repo/hub_toolbox/hubness.py` lines 154-163). -/
noncomputable def hubness {K : Type} [LinearOrder K] [Zero K] (p : Pool) (o : ArgPart (XR K)) (rnd : Hubness.Rnd)
    (sched : Hubness.Schedule) {n m : ℕ} (sparse : Bool) (D : Fin n → Fin m → XR K) (k : ℤ)
    (metric : String) (nJobs : ℤ) (seed : Bool) (shuffle : Bool) : Py (Hubness.Res n) :=
  if nJobs = 1 then Hubness.serial o rnd sparse D k metric shuffle
  else if seed then .error .valueError
  else hubnessParallel p o rnd sched sparse D k metric nJobs shuffle

/-! ### Local Scaling and NICDM -/

/-- Radii by worker processes (`/repo/hub_toolbox/local_scaling.py` lines 146-160, 263-271). -/
noncomputable def radii (p : Pool) (w : LS.World) {n : ℕ} (D : Fin n → Fin n → XR ℝ) (train : List (Fin n)) (kth : ℤ) :
    Py (Fin n → XR ℝ) := do
  let rows ← Np.tabulateM (fun i => LS.partAt w.part (LS.cols D train i) kth)
  pure (p.exec .ndarray (fun _ : Fin n => (.fin 0 : XR ℝ))
    (w.sched ((List.finRange n).map (fun (i : Fin n) => (i, rows i)))))

/-- `local_scaling` for a dense square matrix with `n_jobs > 1` (`/repo/hub_toolbox/local_scaling.py` lines 146-172,
224-311). -/
noncomputable def localScaling (p : Pool) (w : LS.World) {n : ℕ} (D : Fin n → Fin n → XR ℝ) (k : ℤ) (metric : String)
    (test : Option (List ℤ)) : Py (Fin n → Fin n → XR ℝ) := do
  let D := Np.fillDiagonal D (LS.exclude metric)
  let r ← radii p w D (LS.trainInd n test) (LS.kthOf metric n k)
  let mem := p.exec .ndarray (fun _ : Fin n × Fin n => (.fin 0 : XR ℝ))
    (w.sched ((List.finRange n).flatMap (fun (i : Fin n) => LS.secWrites metric D r i)))
  pure (Np.fillDiagonal (fun i j => mem (i, j)) (LS.selfValue metric))

/-- Mean radii by worker processes (`/repo/hub_toolbox/local_scaling.py` lines 408-422, 496-506). -/
noncomputable def meanRadii (p : Pool) (w : LS.World) {n : ℕ} (D : Fin n → Fin n → XR ℝ) (train : List (Fin n)) (k : ℕ) :
    Py (Fin n → XR ℝ) := do
  let rows ← Np.tabulateM (fun i => LS.meanRadius w.part (LS.cols D train i) k)
  pure (p.exec .ndarray (fun _ : Fin n => (.fin 0 : XR ℝ))
    (w.sched ((List.finRange n).map (fun (i : Fin n) => (i, rows i)))))

/-- `nicdm` for a dense square matrix with `n_jobs > 1` (`/repo/hub_toolbox/local_scaling.py` lines 408-429, 485-515). -/
noncomputable def nicdm (p : Pool) (w : LS.World) {n : ℕ} (D : Fin n → Fin n → XR ℝ) (k : ℕ) (test : Option (List ℤ)) :
    Py (Fin n → Fin n → XR ℝ) := do
  let D := Np.fillDiagonal D .pinf
  let r ← meanRadii p w D (LS.trainInd n test) k
  let mem := p.exec .ndarray (fun _ : Fin n × Fin n => (.fin 0 : XR ℝ))
    (w.sched ((List.finRange n).flatMap (fun (i : Fin n) => LS.nicdmWrites (LS.geomean r) D r i)))
  pure (fun i j => mem (i, j))

/-! ### Shared nearest neighbours -/

section
variable {K : Type} [Field K] [LinearOrder K]

/-- What worker `u` knows of the neighbourhoods (`/repo/hub_toolbox/shared_neighbors.py` lines 176-187, 259-269). -/
def marks (p : Pool) (w : SNN.World K) {n m : ℕ} (sel : Fin n → List (Fin m)) (u : Fin p.size) : Fin n → Fin m → Bool :=
  let mem := p.view .ndarray (fun _ : Fin n × Fin m => false)
    ((w.sched ((List.finRange n).flatMap (fun (i : Fin n) => (sel i).map (fun c => ((i, c), true))))).map
      (fun x => (x.1, fun _ => x.2))) u
  fun i c => mem (i, c)

/-- `shared_nearest_neighbors` on a dense square matrix with `n_jobs > 1` (`/repo/hub_toolbox/shared_neighbors.py` lines
176-197, 242-295). Both phases are done by the same worker processes. -/
def snn (p : Pool) (w : SNN.World K) {n : ℕ} (D : Fin n → Fin n → XR K) (k : ℤ) (metric : String) :
    Py (Fin n → Fin n → XR K) := do
  let kth := SNN.kthOf metric n k
  let D := Np.fillDiagonal D (SNN.exclude metric)
  let sel ← Np.tabulateM (fun i => SNN.hood w.part metric kth k (D i))
  let mem := p.result .ndarray (fun _ : Fin n × Fin n => (.fin 0 : XR K))
    (w.sched ((List.finRange n).flatMap (fun (i : Fin n) =>
      ((List.finRange n).filter (fun (j : Fin n) => decide (i < j))).map
        (fun j => ((i, j), fun u => SNN.entry metric k (SNN.overlap (marks p w sel u i) (marks p w sel u j)))))))
  pure (Np.fillDiagonal (fun i j => XR.add (mem (i, j)) (mem (j, i))) (SNN.selfValue metric))
end

/-! ### DisSim Local -/

section
variable {K : Type} [Field K] [LinearOrder K] [FloorRing K]

/-- Local centroids by worker processes (`/repo/hub_toolbox/centering.py` lines 333-343, 403-411). -/
def centroids (p : Pool) (w : SNN.World K) (k : ℤ) {n l m : ℕ} (D : Fin n → Fin l → XR K) (Y : Fin l → Fin m → K) :
    Py (Fin n → Fin m → XR K) := do
  let C ← Np.tabulateM (fun i => do
    let knn ← SNN.hood w.part "distance" k k (D i)
    pure (Cent.rowsMean Y knn))
  let mem := p.exec .ndarray (fun _ : Fin n × Fin m => (.fin 0 : XR K))
    (w.sched ((List.finRange n).flatMap (fun (i : Fin n) => (List.finRange m).map (fun f => ((i, f), C i f)))))
  pure (fun i f => mem (i, f))

/-- `dis_sim_local(X)` for an array of doubles with `n_jobs > 1` (`/repo/hub_toolbox/centering.py` lines 345-449). -/
def disSimLocal (p : Pool) (w : SNN.World K) {n m : ℕ} (X : Fin n → Fin m → K) (k : ℤ) : Py (Fin n → Fin n → XR K) := do
  if n = 0 ∨ m = 0 then throw .valueError
  let D : Fin n → Fin n → XR K := Np.fillDiagonal (fun i j => .fin (Cent.sqDist (X i) (X j))) .pinf
  let C ← centroids p w k D X
  pure (Np.fillDiagonal (fun i j => XR.sub (XR.sub (D i j) (Cent.toCentroid X C i)) (Cent.toCentroid X C j)) .ninf)
end

/-! ### Empirical Mutual Proximity of sparse matrices -/

/-- `_mutual_proximity_empiric_sparse` (`/repo/hub_toolbox/global_scaling.py` lines 306-310, 347-412), see `MPEmp.sparse`. Here
the shared array itself is handed to the worker processes. -/
def mpSparse {K : Type} [Field K] [LinearOrder K] (p : Pool) {n : ℕ} (order : List (Fin n × Fin n)) (minNnz : ℤ)
    (S : Fin n → Fin n → K) : Fin n → Fin n → XR K :=
  let data := p.exec .ctypes (fun _ : Fin n × Fin n => (.fin 0 : XR K))
    (order.map (fun q => (q, MPEmp.secDist minNnz S q.1 q.2)))
  let sym : Fin n → Fin n → XR K := fun i j => XR.add (data (i, j)) (data (j, i))
  let kept : Fin n → Fin n → XR K := fun i j =>
    if (MPEmp.nnz (S i) : ℤ) ≤ minNnz then .fin (S i j) else sym i j
  Np.fillDiagonal kept (.fin 1)

end HubToolbox.Spawn
