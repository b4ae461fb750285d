import Verif.Heap.Sample

/-!
# Shared neighbours and Simhub with their in-place operations

The boolean array `knn` is new in every call and never leaves the functions; it is a value here, as in `Verif.SNN.Model`.
-/

set_option autoImplicit false

namespace HubToolbox.Heap

open HubToolbox HubToolbox.SNN

section
variable {K : Type} [Field K] [LinearOrder K]

/-- The array `D_snn` before it is symmetrised (`/repo/hub_toolbox/shared_neighbors.py` lines 256-291). -/
def snnPhases (w : World K) {n : ℕ} (D : Arr n n) (k : ℤ) (metric : String) (nJobs : ℤ) (sel : Fin n → List (Fin n)) :
    M (XR K) (Arr n n) :=
  if jobs w nJobs > 1 then new (secParallel w metric k (markParallel w sel))
  else do
    let L ← new (fun _ _ => .fin 0)
    fillUpper (List.finRange n) D L 1 (fun _ i j => entry metric k (overlap (markSerial sel i) (markSerial sel j)))
    pure L

/-- `shared_nearest_neighbors` of a dense square matrix (`/repo/hub_toolbox/shared_neighbors.py` lines 242-295). -/
def snnH (w : World K) {n : ℕ} (D : Arr n n) (k : ℤ) (metric : String) (nJobs : ℤ) : M (XR K) (Arr n n) := do
  let D ← copy D
  modify D (fun V => Np.fillDiagonal V (exclude metric))
  let V ← read D
  let sel ← lift (Np.tabulateM (fun i => hood w.part metric (kthOf metric n k) k (V i)))
  let L ← snnPhases w D k metric nJobs sel
  addTransposed L
  modify L (fun V => Np.fillDiagonal V (selfValue metric))
  pure L

/-- The array `D_snn` of `snn_sample` before the self values are set (`/repo/hub_toolbox/shared_neighbors.py` lines 125-159). -/
def snnSamplePhases (w : World K) {n s : ℕ} (D : Arr n s) (k : ℤ) (metric : String) (idx : Fin s → Fin n)
    (test : Option (Σ t : ℕ, Fin t → Fin n)) (nJobs : ℤ) (sel : Fin n → List (Fin s)) : M (XR K) (Arr n s) :=
  if jobs w nJobs > 1 then
    new (rowsParallel w (rowsOf test) (fun i j => entry metric k (overlap (markParallel w sel i) (markParallel w sel (idx j)))))
  else do
    let L ← new (fun _ _ => .fin 0)
    fillRows (rowsOf test) D L (fun _ i j => entry metric k (overlap (markSerial sel i) (markSerial sel (idx j))))
    pure L

/-- `snn_sample` after its checks (`/repo/hub_toolbox/shared_neighbors.py` lines 107-168). -/
def snnSampleH (w : World K) {n s : ℕ} (D : Arr n s) (k : ℤ) (metric : String) (idx : Fin s → Fin n)
    (test : Option (Σ t : ℕ, Fin t → Fin n)) (nJobs : ℤ) : M (XR K) (Σ t : ℕ, Arr t s) := do
  let D ← copy D
  storeSamples D idx (exclude metric)
  let V ← read D
  let L ← snnSamplePhases w D k metric idx test nJobs (fun i => top metric (w.srt.run (V i)) k)
  if test.isSome then storeSamples L idx (selfValue metric) else modify L (fun V => Np.fillDiagonal V (selfValue metric))
  selectRows L test

end

/-- Exclusion of self distances (`/repo/hub_toolbox/shared_neighbors.py` lines 400-404, 554-558). -/
def excludeSelf {n m : ℕ} (D : Arr n m) : Option (Fin m → Fin n) → M (XR ℝ) Unit
  | none => modify D (fun V => Np.fillDiagonal V .pinf)
  | some idx => storeSamples D idx .pinf

/-- Normalisation, conversion to distances, self values and selection of rows, all in place
(`/repo/hub_toolbox/shared_neighbors.py` lines 467-482, 617-636). -/
noncomputable def shiFinishH {n m : ℕ} (L : Arr n m) (norm : XR ℝ) (returnDist : Bool) (test : Option (Σ t : ℕ, Fin t → Fin n)) :
    M (XR ℝ) (Σ t : ℕ, Arr t m) := do
  modify L (fun V i j => XR.div (V i j) norm)
  if returnDist then do
    modify L (fun V i j => XR.mul (V i j) (.fin (-1)))
    modify L (fun V i j => XR.add (V i j) (.fin 1))
  if test.isNone then modify L (fun V => Np.fillDiagonal V (if returnDist then .fin 0 else .fin 1))
  selectRows L test

/-- `simhub` without labels, after its checks (`/repo/hub_toolbox/shared_neighbors.py` lines 544-636). -/
noncomputable def simhubH (w : World ℝ) {n m : ℕ} (h : m ≤ n) (D : Arr n m) (idx : Option (Fin m → Fin n))
    (test : Option (Σ t : ℕ, Fin t → Fin n)) (s : ℤ) (returnDist : Bool) (vectUsage : ℤ) : M (XR ℝ) (Σ t : ℕ, Arr t m) := do
  let D ← copy D
  excludeSelf D idx
  let V ← read D
  let knn := markSerial (fun i => top "distance" (w.srt.run (V i)) s)
  let In : Fin m → XR ℝ := fun j => informativeness m (occ knn j + 1)
  let L ← new (fun _ _ => .fin 0)
  fillRows (rowsOf test) D L (fun _ i j =>
    shared (knn i) (knn (partner h (decide (vectUsage > 0 ∨ (vectUsage = 0 ∧ m < 2000))) idx j)) (fun c => XR.mul (In c) (.fin 1)))
  shiFinishH L (XR.mul (.fin (s : ℝ)) (XR.log (.fin (m : ℝ)))) returnDist test

end HubToolbox.Heap
