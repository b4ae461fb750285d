import Verif.LS.Model
import Verif.Knn.Model

/-!
# Model of `hub_toolbox/shared_neighbors.py`

The worker pools pass numpy views of shared memory to the workers through `initargs`; as with the `fork` start method
the workers are taken to write to the memory of the caller.
-/

set_option autoImplicit false

namespace HubToolbox.SNN

open HubToolbox

variable {K : Type}

/-- What is outside of the code: number of CPUs, numpy's partial sort and (unstable) sort, and the order in which worker
processes store their results in shared memory. -/
structure World (K : Type) [LinearOrder K] where
  cpu : ℕ
  cpu_pos : 0 < cpu
  part : ArgPart (XR K)
  srt : Knn.ArgSort (XR K)
  sched : ∀ {A V : Type}, List (A × V) → List (A × V)
  sched_perm : ∀ {A V : Type} (l : List (A × V)), (sched l).Perm l

/-- `n_jobs` after lines 125-126, 256-257, 406-407 of `/repo/hub_toolbox/shared_neighbors.py`. -/
def jobs [LinearOrder K] (w : World K) (nJobs : ℤ) : ℤ := if nJobs = -1 then w.cpu else nJobs

/-- `exclude` (`/repo/hub_toolbox/shared_neighbors.py` lines 110, 114, 246, 251). -/
def exclude (metric : String) : XR K := if metric = "similarity" then .ninf else .pinf

/-- `self_value` (`/repo/hub_toolbox/shared_neighbors.py` lines 108, 112, 244, 249). -/
def selfValue [Field K] (metric : String) : XR K := if metric = "similarity" then .fin 1 else .fin 0

/-- `nn[::sort_order][:k]`. -/
def top {m : ℕ} (metric : String) (nn : List (Fin m)) (k : ℤ) : List (Fin m) :=
  Knn.slice0 k (if metric = "similarity" then nn.reverse else nn)

/-- `kth` (`/repo/hub_toolbox/shared_neighbors.py` lines 247, 252). -/
def kthOf (metric : String) (n : ℕ) (k : ℤ) : ℤ := if metric = "similarity" then (n : ℤ) - k else k

/-- The selected columns of one row (`/repo/hub_toolbox/shared_neighbors.py` lines 184-186, 278-280). -/
def hood [LinearOrder K] (o : ArgPart (XR K)) (metric : String) {m : ℕ} (kth k : ℤ) (d : Fin m → XR K) :
    Py (List (Fin m)) := do
  let (p, _) ← Np.argpartition o d (fun _ : Fin 1 => kth)
  pure (top metric (List.ofFn p) k)

/-- Row by row assignment `knn[i, cols] = True` into an array of `False`. -/
def markSerial {n m : ℕ} (sel : Fin n → List (Fin m)) : Fin n → Fin m → Bool :=
  (List.finRange n).foldl (fun (M : Fin n → Fin m → Bool) (i : Fin n) =>
    Function.update M i (fun c => M i c || (sel i).contains c)) (fun _ _ => false)

/-- The same assignments by worker processes in any order. -/
def markParallel [LinearOrder K] (w : World K) {n m : ℕ} (sel : Fin n → List (Fin m)) : Fin n → Fin m → Bool :=
  let mem := Sched.exec (fun _ : Fin n × Fin m => false)
    (w.sched ((List.finRange n).flatMap (fun (i : Fin n) => (sel i).map (fun c => ((i, c), true)))))
  fun i c => mem (i, c)

/-- `np.sum(np.logical_and(a, b))`. -/
def overlap {m : ℕ} (a b : Fin m → Bool) : ℕ := Np.countTrue (fun c => a c && b c)

/-- `1. - Dij / k` or `Dij / k` (`/repo/hub_toolbox/shared_neighbors.py` lines 46-49, 156-159, 193-196, 288-291). -/
def entry [Field K] [LinearOrder K] (metric : String) (k : ℤ) (c : ℕ) : XR K :=
  let q : XR K := XR.div (.fin (c : K)) (.fin (k : K))
  if metric = "distance" then XR.sub (.fin 1) q else q

/-- Second phase in one process (`/repo/hub_toolbox/shared_neighbors.py` lines 281-291). -/
def secSerial [Field K] [LinearOrder K] (metric : String) (k : ℤ) {n : ℕ} (knn : Fin n → Fin n → Bool) :
    Fin n → Fin n → XR K :=
  (List.finRange n).foldl (fun (M : Fin n → Fin n → XR K) (i : Fin n) =>
    Np.setRowFrom M i (i.val + 1) (fun j => entry metric k (overlap (knn i) (knn j)))) (fun _ _ => .fin 0)

/-- Second phase by worker processes (`/repo/hub_toolbox/shared_neighbors.py` lines 189-197, 270-273). -/
def secParallel [Field K] [LinearOrder K] (w : World K) (metric : String) (k : ℤ) {n : ℕ}
    (knn : Fin n → Fin n → Bool) : Fin n → Fin n → XR K :=
  let mem := Sched.exec (fun _ : Fin n × Fin n => (.fin 0 : XR K))
    (w.sched ((List.finRange n).flatMap (fun (i : Fin n) =>
      ((List.finRange n).filter (fun (j : Fin n) => decide (i < j))).map
        (fun j => ((i, j), entry metric k (overlap (knn i) (knn j)))))))
  fun i j => mem (i, j)

/-- `shared_nearest_neighbors` on a dense square matrix (`/repo/hub_toolbox/shared_neighbors.py` lines 242-295).
Simplification: `np.frombuffer` of the empty shared array of a `0 × 0` matrix is not treated separately. -/
def core [Field K] [LinearOrder K] (w : World K) {n : ℕ} (D : Fin n → Fin n → XR K) (k : ℤ) (metric : String)
    (nJobs : ℤ) : Py (Fin n → Fin n → XR K) := do
  let kth := kthOf metric n k
  let D := Np.fillDiagonal D (exclude metric)
  let sel ← Np.tabulateM (fun i => hood w.part metric kth k (D i))
  let S := if jobs w nJobs > 1 then secParallel w metric k (markParallel w sel)
    else secSerial metric k (markSerial sel)
  pure (Np.fillDiagonal (fun i j => XR.add (S i j) (S j i)) (selfValue metric))

/-- `shared_nearest_neighbors` (`/repo/hub_toolbox/shared_neighbors.py` lines 199-295). For a sparse matrix
`np.fill_diagonal` (line 254) raises `AttributeError` (no attribute `flat`). -/
def sharedNearestNeighbors [Field K] [LinearOrder K] (w : World K) (D : PyMat (XR K)) (k : ℤ) (metric : String)
    (nJobs : ℤ) : Py (Σ n : ℕ, Fin n → Fin n → XR K) := do
  let (sp, ⟨n, D⟩) ← D.checkSquare
  checkValidMetric metric
  if sp then throw .attributeError
  let M ← core w D k metric nJobs
  pure ⟨n, M⟩

/-! ### Sample variant -/

/-- All entries of the rows `rows`, written by worker processes. -/
def rowsParallel [Field K] [LinearOrder K] (w : World K) {n s : ℕ} (rows : List (Fin n)) (f : Fin n → Fin s → XR K) :
    Fin n → Fin s → XR K :=
  let mem := Sched.exec (fun _ : Fin n × Fin s => (.fin 0 : XR K))
    (w.sched (rows.flatMap (fun (i : Fin n) => (List.finRange s).map (fun j => ((i, j), f i j)))))
  fun i j => mem (i, j)

/-- Rows `n_ind` (`/repo/hub_toolbox/shared_neighbors.py` lines 117-120, 395-398, 549-552). -/
def rowsOf {n : ℕ} : Option (Σ t : ℕ, Fin t → Fin n) → List (Fin n)
  | none => List.finRange n
  | some ⟨_, t⟩ => List.ofFn t

/-- Index check of `test_ind`. -/
def wrapTest (n : ℕ) : Option (Σ t : ℕ, Fin t → ℤ) → Py (Option (Σ t : ℕ, Fin t → Fin n))
  | none => .ok none
  | some ⟨t, v⟩ =>
    match Np.wrapAll n v with
    | none => .error .indexError
    | some v => .ok (some ⟨t, v⟩)

/-- `snn_sample` (`/repo/hub_toolbox/shared_neighbors.py` lines 52-168). Sparse matrices are rejected by the check in
line 105. -/
def snnSample [Field K] [LinearOrder K] (w : World K) (D : PyMat (XR K)) (k : ℤ) (metric : String)
    (idx : Option (Σ s : ℕ, Fin s → ℤ)) (test : Option (Σ t : ℕ, Fin t → ℤ)) (nJobs : ℤ) :
    Py (Σ t s : ℕ, Fin t → Fin s → XR K) := do
  let ⟨n, s, D, idx⟩ ← LS.checkSample D idx
  checkValidMetric metric
  match Np.wrapAll n idx with
  | none => throw .indexError
  | some idx =>
    let D := LS.setSelf idx (exclude metric) D
    let sel : Fin n → List (Fin s) := fun i => top metric (w.srt.run (D i)) k
    let test ← wrapTest n test
    let S : Fin n → Fin s → XR K :=
      if jobs w nJobs > 1 then
        let knn := markParallel w sel
        rowsParallel w (rowsOf test) (fun i j => entry metric k (overlap (knn i) (knn (idx j))))
      else
        let knn := markSerial sel
        LS.fillRows (rowsOf test) (fun i j => entry metric k (overlap (knn i) (knn (idx j))))
    match test with
    | none => pure ⟨n, s, Np.fillDiagonal S (selfValue metric)⟩
    | some ⟨t, v⟩ => pure ⟨t, s, fun a => LS.setSelf idx (selfValue metric) S (v a)⟩

/-! ### simhub -/

/-- Matrix and train indices after lines 385-394 / 536-545 of `/repo/hub_toolbox/shared_neighbors.py`.
Result: sparse?, shape, matrix, train indices (`none` for a square matrix). -/
def shiCheck (D : PyMat (XR ℝ)) (idx : Option (Σ s : ℕ, Fin s → ℤ)) :
    Py (Bool × Σ n m : ℕ, (Fin n → Fin m → XR ℝ) × Option (Fin m → ℤ)) :=
  match idx with
  | none => do
    let (sp, ⟨n, D⟩) ← D.checkSquare
    pure (sp, ⟨n, n, D, none⟩)
  | some idx => do
    let ⟨n, m, D, idx⟩ ← LS.checkSample D (some idx)
    pure (false, ⟨n, m, D, some idx⟩)

/-- Exclusion of self distances (`/repo/hub_toolbox/shared_neighbors.py` lines 400-404, 554-558). Result: matrix and
normalised train indices. -/
def shiExclude (sp : Bool) {n m : ℕ} (D : Fin n → Fin m → XR ℝ) :
    Option (Fin m → ℤ) → Py ((Fin n → Fin m → XR ℝ) × Option (Fin m → Fin n))
  | none => if sp then .error .attributeError else .ok (Np.fillDiagonal D .pinf, none)
  | some idx =>
    match Np.wrapAll n idx with
    | none => .error .indexError
    | some idx => .ok (LS.setSelf idx .pinf D, some idx)

/-- Number of rows `i < m` which mark column `j`: `knn[:m, :].sum(axis=0)`. -/
def occ {n m : ℕ} (knn : Fin n → Fin m → Bool) (j : Fin m) : ℕ :=
  Np.countTrue (fun i : Fin n => decide (i.val < m) && knn i j)

/-- `N_s` of `simhubIN` (`/repo/hub_toolbox/shared_neighbors.py` lines 429-431). -/
def occIN {n m : ℕ} (knn : Fin n → Fin m → Bool) (j : Fin m) : ℕ := occ (Np.fillDiagonal knn true) j

/-- `np.log(m / N_s)` (`/repo/hub_toolbox/shared_neighbors.py` lines 432, 600). -/
noncomputable def informativeness (m N : ℕ) : XR ℝ := XR.log (XR.div (.fin (m : ℝ)) (.fin (N : ℝ)))

/-- A bool used as a float factor. -/
noncomputable def ofBool (b : Bool) : XR ℝ := if b then .fin 1 else .fin 0

/-- The row of `knn` which column `j` is compared with: `knn[train_ind, :][j]`, in the vectorised branch, `knn[j, :]`
in the other one (`/repo/hub_toolbox/shared_neighbors.py` lines 326, 333, 458, 463, 609, 614). `h` makes row `j`
exist. -/
def partner {n m : ℕ} (h : m ≤ n) (vect : Bool) (idx : Option (Fin m → Fin n)) (j : Fin m) : Fin n :=
  match vect, idx with
  | true, some idx => idx j
  | _, _ => j.castLE h

/-- `np.sum(x * weight)` for one pair (`/repo/hub_toolbox/shared_neighbors.py` lines 326-327, 333-334, 458-464,
609-615). -/
noncomputable def shared {m : ℕ} (a b : Fin m → Bool) (weight : Fin m → XR ℝ) : XR ℝ :=
  XR.sum (fun c => XR.mul (ofBool (a c && b c)) (weight c))

/-- Conversion to distances, self value, selection of test rows
(`/repo/hub_toolbox/shared_neighbors.py` lines 467-482, 617-636). `S` are the sums. -/
noncomputable def shiFinish {n m : ℕ} (S : Fin n → Fin m → XR ℝ) (norm : XR ℝ) (returnDist : Bool)
    (test : Option (Σ t : ℕ, Fin t → Fin n)) : Σ t m : ℕ, Fin t → Fin m → XR ℝ :=
  let S : Fin n → Fin m → XR ℝ := fun i j => XR.div (S i j) norm
  let S : Fin n → Fin m → XR ℝ := fun i j =>
    if returnDist then XR.add (XR.mul (S i j) (.fin (-1))) (.fin 1) else S i j
  match test with
  | none => ⟨n, m, Np.fillDiagonal S (if returnDist then .fin 0 else .fin 1)⟩
  | some ⟨t, v⟩ => ⟨t, m, fun a => S (v a)⟩

/-- `simhubIN` (`/repo/hub_toolbox/shared_neighbors.py` lines 337-482). -/
noncomputable def simhubIN (w : World ℝ) (D : PyMat (XR ℝ)) (idx : Option (Σ s : ℕ, Fin s → ℤ))
    (test : Option (Σ t : ℕ, Fin t → ℤ)) (s : ℤ) (returnDist : Bool) (nJobs : ℤ) :
    Py (Σ t m : ℕ, Fin t → Fin m → XR ℝ) := do
  let (sp, ⟨n, m, D, idx⟩) ← shiCheck D idx
  let (D, idx) ← shiExclude sp D idx
  if h : m ≤ n then
    let sel : Fin n → List (Fin m) := fun i => top "distance" (w.srt.run (D i)) s
    let knn := if jobs w nJobs > 1 then markParallel w sel else markSerial sel
    let In : Fin m → XR ℝ := fun j => informativeness m (occIN knn j)
    let test ← wrapTest n test
    let f : Fin n → Fin m → XR ℝ := fun i j => shared (knn i) (knn (partner h (decide (m < 2000)) idx j)) In
    let S := if jobs w nJobs > 1 then rowsParallel w (rowsOf test) f else LS.fillRows (rowsOf test) f
    pure (shiFinish S (XR.mul (.fin (s : ℝ)) (XR.log (.fin (m : ℝ)))) returnDist test)
  else throw .valueError

/-- Labels broadcast to the first `m` rows (`/repo/hub_toolbox/shared_neighbors.py` line 580). An empty `y` leaves no
class, so that the assertion in line 581 fails (`0 < s` gives every row a neighbour). -/
def broadcastLabels (m : ℕ) (y : Σ l : ℕ, Fin l → ℤ) : Py (Fin m → ℤ) :=
  if h : m = y.1 then .ok (fun i => y.2 (i.cast h))
  else if h1 : y.1 = 1 then .ok (fun _ => y.2 ⟨0, by omega⟩)
  else if y.1 = 0 then .error .assertionError
  else .error .valueError

/-- `N_sc[c, j]` before smoothing (`/repo/hub_toolbox/shared_neighbors.py` lines 578-580). -/
def occClass {n m : ℕ} (knn : Fin n → Fin m → Bool) (y : Fin m → ℤ) (c : ℤ) (j : Fin m) : ℕ :=
  Np.countTrue (fun i : Fin n => if h : i.val < m then knn i j && decide (y ⟨i.val, h⟩ = c) else false)

/-- `N_sc * np.log(N_sc)` for one class (`/repo/hub_toolbox/shared_neighbors.py` lines 584-591). -/
noncomputable def plogp (Nc N : ℕ) : XR ℝ :=
  let p := XR.div (.fin ((Nc + 1 : ℕ) : ℝ)) (.fin ((N + 1 : ℕ) : ℝ))
  XR.mul p (XR.log p)

/-- `info_gain` for column `j` (`/repo/hub_toolbox/shared_neighbors.py` lines 590-595). `C` are the classes. -/
noncomputable def infoGain {n m : ℕ} (knn : Fin n → Fin m → Bool) (y : Fin m → ℤ) (C : List ℤ) (j : Fin m) : XR ℝ :=
  let HR := XR.neg (XR.sum (fun c : Fin C.length => plogp (occClass knn y (C.get c) j) (occ knn j)))
  XR.sub (XR.log (.fin (C.length : ℝ))) HR

/-- `simhub` (`/repo/hub_toolbox/shared_neighbors.py` lines 484-636). `y = none` is python's `None`; otherwise `y` is
an integer array. -/
noncomputable def simhub (w : World ℝ) (D : PyMat (XR ℝ)) (y : Option (Σ l : ℕ, Fin l → ℤ))
    (idx : Option (Σ s : ℕ, Fin s → ℤ)) (test : Option (Σ t : ℕ, Fin t → ℤ)) (s : ℤ) (returnDist : Bool)
    (vectUsage : ℤ) : Py (Σ t m : ℕ, Fin t → Fin m → XR ℝ) := do
  let (sp, ⟨n, m, D, idx⟩) ← shiCheck D idx
  if ¬ (0 < s ∧ s < m) then throw .valueError
  let (D, idx) ← shiExclude sp D idx
  if h : m ≤ n then
    let knn := markSerial (fun i => top "distance" (w.srt.run (D i)) s)
    let vect : Bool := decide (vectUsage > 0 ∨ (vectUsage = 0 ∧ m < 2000))
    let In : Fin m → XR ℝ := fun j => informativeness m (occ knn j + 1)
    match y with
    | none => do
      let test ← wrapTest n test
      let S := LS.fillRows (rowsOf test) (fun i j => shared (knn i) (knn (partner h vect idx j))
        (fun c => XR.mul (In c) (.fin 1)))
      pure (shiFinish S (XR.mul (.fin (s : ℝ)) (XR.log (.fin (m : ℝ)))) returnDist test)
    | some y => do
      let lab ← broadcastLabels m y
      let C := Np.unique (List.ofFn y.2)
      if ¬ ∀ j : Fin m, (C.map (fun c => occClass knn lab c j)).sum = occ knn j then throw .assertionError
      let gain := infoGain knn lab C
      let test ← wrapTest n test
      let S := LS.fillRows (rowsOf test) (fun i j => shared (knn i) (knn (partner h vect idx j))
        (fun c => XR.mul (In c) (gain c)))
      pure (shiFinish S (XR.mul (XR.mul (.fin (s : ℝ)) (XR.log (.fin (m : ℝ)))) (XR.log (.fin (C.length : ℝ))))
        returnDist test)
  else throw .valueError

end HubToolbox.SNN
