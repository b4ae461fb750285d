import Verif.Heap.Base
import Verif.Hubness.Model

/-!
# `hubness` with its in-place operations

The functions of `hub_toolbox/hubness.py` as they work on memory: the rows of the copied matrix are views which get overwritten.
-/

set_option autoImplicit false

namespace HubToolbox.Heap

open HubToolbox HubToolbox.Hubness

variable {K : Type} [LinearOrder K] [Zero K]

/-- The in-place changes of the copied matrix (`/repo/hub_toolbox/hubness.py` lines 188-198, 258-267). -/
def prepareH {n m : ℕ} (sparse : Bool) (dself : XR K) (D : Arr n m) : M (XR K) Unit :=
  if sparse then pure ()
  else do
    if n = m then modify D (fun V => Np.fillDiagonal V dself)
    modify D (fun V i => Np.replaceNonFinite (V i) dself)

/-- The in-place changes of one row (`/repo/hub_toolbox/hubness.py` lines 75-80, 276-281). -/
def rowChange {n m : ℕ} (metric : String) (dself : XR K) (i : Fin n) (d : Fin m → Addr) : M (XR K) Unit := do
  if h : n = m then storeAt d (i.cast h) dself
  else if metric = "distance" then modifyV d (fun v j => if v j = .fin 0 then dself else v j)
  modifyV d (fun v => Np.replaceNonFinite v dself)

/-- `_hubness_no_multiprocessing` (`/repo/hub_toolbox/hubness.py` lines 230-302) for the array `D` in memory. `D_k` is a local array
to which nothing else refers; it is kept as a value. -/
noncomputable def serialH (o : ArgPart (XR K)) (rnd : Rnd) {n m : ℕ} (sparse : Bool) (D : Arr n m) (k : ℤ)
    (metric : String) (shuffle : Bool) : M (XR K) (Res n) := do
  lift (checkValidMetric metric)
  let k := reduceK k m
  let dself : XR K := dSelf metric
  let D ← copy D
  lift (if k < 0 then throw .valueError else pure ())
  let kth := Np.arange (kthStart metric n k.toNat) k.toNat
  prepareH sparse dself D
  let Dk ← (List.finRange n).foldlM (fun (Dk : Fin n → Fin k.toNat → ℕ) i => rowStep sparse D (rowChange metric dself)
    (fun i v => do
      let row ← selectRow o shuffle (rnd i m) kth (metric = "similarity") v
      pure (Function.update Dk i row)) i) (fun _ _ => 0)
  pure (finish m Dk)

/-- The multiprocessing branch of `hubness` (`/repo/hub_toolbox/hubness.py` lines 164-228) with worker
`_hubness_nearest_neighbors` (lines 67-92), for processes started by fork: each worker process has its own copy of the memory, in
which the tasks it has run before have changed their rows. -/
noncomputable def parallelH (o : ArgPart (XR K)) (rnd : Rnd) (sched : Schedule) {n m : ℕ} (w : Workers n) (sparse : Bool)
    (D : Arr n m) (k : ℤ) (metric : String) (nJobs : ℤ) (shuffle : Bool) : M (XR K) (Res n) := do
  lift (checkValidMetric metric)
  let k := reduceK k m
  let dself : XR K := dSelf metric
  lift (if k < 0 then throw .valueError else pure ())
  let kth := Np.arange (kthStart metric m k.toNat) k.toNat
  let D ← copy D
  prepareH sparse dself D
  lift (if nJobs ≠ -1 ∧ nJobs < 1 then throw .valueError else pure ())
  let rows ← (List.finRange n).foldlM (fun (R : Fin n → Fin k.toNat → ℕ) i => do
    let row ← inWorker w (rowStep sparse D (rowChange metric dself)
      (fun i v => selectRow o shuffle (rnd i m) kth (metric = "similarity") v)) i
    pure (Function.update R i row)) (fun _ _ => 0)
  let shared := Sched.exec (fun _ : Fin n × Fin k.toNat => 0)
    ((sched.cells n k.toNat).map (fun a => (a, rows a.1 a.2)))
  pure (finish m (fun i c => shared (i, c)))

/-- `hubness` (`/repo/hub_toolbox/hubness.py` lines 94-228) for a two-dimensional array. -/
noncomputable def hubnessH (o : ArgPart (XR K)) (rnd : Rnd) (sched : Schedule) {n m : ℕ} (w : Workers n) (sparse : Bool)
    (D : Arr n m) (k : ℤ) (metric : String) (nJobs : ℤ) (seed : Bool) (shuffle : Bool) : M (XR K) (Res n) :=
  if nJobs = 1 then serialH o rnd sparse D k metric shuffle
  else if seed then lift (.error .valueError)
  else parallelH o rnd sched w sparse D k metric nJobs shuffle

end HubToolbox.Heap
