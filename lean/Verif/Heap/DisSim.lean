import Verif.Heap.Base
import Verif.Cent.Model

/-!
# `dis_sim_local` with its in-place operations

In `dis_sim_local`, `Y` is another name of `X` if there is only one data set, `D_test` of `D_train`, and `x_y` of `D_test`; all of them get
overwritten.
-/

set_option autoImplicit false

namespace HubToolbox.Heap

open HubToolbox HubToolbox.Cent

variable {K : Type} [Field K] [LinearOrder K] [FloorRing K]

/-- The number in a cell. Simplification: coordinates are finite. -/
def val : XR K → K
  | .fin x => x
  | _ => 0

/-- `euclidean_distances(X, Y, squared=True)`: a new array. -/
def sqDistances {n l m : ℕ} (X : Arr n m) (Y : Arr l m) : M (XR K) (Arr n l) := do
  let x ← read X
  let y ← read Y
  new (fun i j => .fin (sqDist (fun f => val (x i f)) (fun f => val (y j f))))

/-- Local centroids (`/repo/hub_toolbox/centering.py` lines 340-343, 403-417, 425-439), from the present contents of the arrays. The array
of centroids is only read later on. -/
def centroidsH (w : SNN.World K) (nJobs : ℤ) (dtype : Dtype) (k : ℤ) {n l m : ℕ} (D : Arr n l) (Y : Arr l m) :
    M (XR K) (Fin n → Fin m → XR K) := do
  let d ← read D
  let y ← read Y
  lift (centroids w nJobs dtype k d (fun j f => val (y j f)))

/-- `X -= c_k_X`, `X **= 2`, `X.sum(axis=1)` (`/repo/hub_toolbox/centering.py` lines 418-420, 440-442). -/
def toCentroidH {n m : ℕ} (X : Arr n m) (C : Fin n → Fin m → XR K) : M (XR K) (Fin n → XR K) := do
  modify X (fun V i f => XR.sub (V i f) (C i f))
  modify X (fun V i f => XR.mul (V i f) (V i f))
  let V ← read X
  pure (fun i => XR.sum (V i))

/-- `dis_sim_local` (`/repo/hub_toolbox/centering.py` lines 379-449) for arrays with the same number of columns; the result is an array in
memory. -/
def disSimLocalH (w : SNN.World K) {n m : ℕ} (X : Arr n m) (dtype : Dtype) (Y : Option (Dtype × Σ l : ℕ, Arr l m))
    (k nJobs : ℤ) : M (XR K) (Σ l : ℕ, Arr n l) := do
  let X ← copy X
  match Y with
  | none =>
    lift (if n = 0 ∨ m = 0 then throw .valueError else pure ())
    let D ← sqDistances X X
    modify D (fun V => Np.fillDiagonal V .pinf)
    let C ← centroidsH w nJobs dtype k D X
    let xc ← toCentroidH X C
    modify D (fun V i j => XR.sub (V i j) (xc i))
    modify D (fun V i j => XR.sub (V i j) (xc j))
    modify D (fun V => Np.fillDiagonal V .ninf)
    pure ⟨n, D⟩
  | some (dtypeY, ⟨l, Y⟩) =>
    let Y ← copy Y
    lift (if n = 0 ∨ l = 0 ∨ m = 0 then throw .valueError else pure ())
    let D ← sqDistances Y Y
    let T ← sqDistances X Y
    let C ← centroidsH w nJobs dtype k T Y
    let xc ← toCentroidH X C
    let C' ← centroidsH w nJobs dtypeY k D Y
    let yc ← toCentroidH Y C'
    modify T (fun V i j => XR.sub (V i j) (xc i))
    modify T (fun V i j => XR.sub (V i j) (yc j))
    pure ⟨l, T⟩

end HubToolbox.Heap
