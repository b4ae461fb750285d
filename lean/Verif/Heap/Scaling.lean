import Verif.Heap.DisSimProps
import Verif.LS.Model

/-!
# Local scaling and NICDM with their in-place operations

The secondary distances are stored row by row to the upper triangle of an array, to which its transposed view is added.
-/

set_option autoImplicit false

namespace HubToolbox.Heap

open HubToolbox HubToolbox.LS

/-- `L[i, s:] = v[s:]`. -/
def assignFrom {α : Type} {n m : ℕ} (L : Arr n m) (i : Fin n) (s : ℕ) (v : Fin m → α) : M α Unit := fun h =>
  (.ok (), { h with cell := stores ((List.finRange m).filter (fun (j : Fin m) => decide (s ≤ j.val))) (L i) v h.cell })

/-- `for i in rows: L[i, i+off:] = f(D, i)`. -/
def fillUpper {α : Type} {n : ℕ} (rows : List (Fin n)) (D L : Arr n n) (off : ℕ) (f : (Fin n → Fin n → α) → Fin n → Fin n → α) : M α Unit :=
  rows.foldlM (fun _ i => do
    let V ← read D
    assignFrom L i (i.val + off) (f V i)) ()

/-- `L += L.T`: the transposed view is read before the sums are stored. -/
def addTransposed {K : Type} [Add K] {n : ℕ} (L : Arr n n) : M (XR K) Unit := do
  let T ← read (fun i j => L j i)
  modify L (fun V i j => XR.add (V i j) (T i j))

/-- `local_scaling` of a dense square matrix (`/repo/hub_toolbox/local_scaling.py` lines 224-311). The pool writes to shared memory, which is
a new array here; its tasks only read the matrix. -/
noncomputable def localScalingH (w : World) {n : ℕ} (D : Arr n n) (k : ℤ) (metric : String) (test : Option (List ℤ)) (nJobs : ℤ) :
    M (XR ℝ) (Arr n n) := do
  let D ← copy D
  modify D (fun V => Np.fillDiagonal V (exclude metric))
  let V ← read D
  let r ← lift (if jobs w nJobs > 1 then radiiParallel w V (trainInd n test) (kthOf metric n k)
    else radiiSerial w.part V (trainInd n test) (kthOf metric n k))
  if jobs w nJobs = 1 then do
    let L ← new (fun _ _ => .fin 0)
    fillUpper (List.finRange n) D L 0 (fun V i j => if j = i then selfTmp metric else entry metric (V i j) (r i) (r j))
    addTransposed L
    modify L (fun V => Np.fillDiagonal V (selfValue metric))
    pure L
  else if jobs w nJobs > 1 then do
    let V ← read D
    let L ← new (secParallel w metric V r)
    modify L (fun V => Np.fillDiagonal V (selfValue metric))
    pure L
  else lift (throw .unboundLocalError)

/-- `nicdm` of a dense square matrix (`/repo/hub_toolbox/local_scaling.py` lines 485-528). -/
noncomputable def nicdmH (w : World) {n : ℕ} (D : Arr n n) (k : ℕ) (test : Option (List ℤ)) (nJobs : ℤ) : M (XR ℝ) (Arr n n) := do
  let D ← copy D
  modify D (fun V => Np.fillDiagonal V .pinf)
  let V ← read D
  if jobs w nJobs > 1 then do
    let r ← lift (meanRadiiParallel w V (trainInd n test) k)
    let V ← read D
    new (nicdmParallel w (geomean r) V r)
  else do
    let r ← lift (meanRadiiSerial w.part V (trainInd n test) k)
    let L ← new (fun _ _ => .fin 0)
    fillUpper (List.finRange n) D L 1 (fun V i j => nicdmEntry (geomean r) (V i j) (r i) (r j))
    addTransposed L
    pure L

end HubToolbox.Heap
