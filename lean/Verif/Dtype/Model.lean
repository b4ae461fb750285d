import Verif.Hubness.Model
import Verif.SNN.Model
import Mathlib.Algebra.Order.Floor.Ring

/-!
# Matrices of integers and of truth values

`D.copy()` and `np.zeros_like(D)` keep the element type of the argument, so what the functions store (`inf` for self
distances, the secondary distances) is converted to that type. This is a model of the single process branches of
`mutual_proximity_empiric`, `local_scaling`, `shared_nearest_neighbors` and `hubness` for square dense matrices with an
element type. Arithmetic results (`np.sum(…) / n`, `np.exp(…)`) are floats for every element type.
-/

set_option autoImplicit false

namespace HubToolbox.Dtype

open HubToolbox

/-- Element type of a numpy array: floats, signed integers, or booleans. -/
inductive Dt
  | float | int | bool
  deriving DecidableEq

section
variable {K : Type} [Field K] [LinearOrder K]

/-- Conversion of a number to a truth value: only zero is false. Truth values are represented by 0 and 1. -/
def truth (v : XR K) : XR K := if v = .fin 0 then .fin 0 else .fin 1

/-- The values of the array are values of its element type. -/
def Holds [FloorRing K] (dt : Dt) (v : XR K) : Prop :=
  match dt with
  | .float => True
  | .int => ∃ z : ℤ, v = .fin (z : K)
  | .bool => v = .fin 0 ∨ v = .fin 1

/-- Conversion to an integer cuts off the fraction. -/
def trunc [FloorRing K] (x : K) : K := if 0 ≤ x then (⌊x⌋ : K) else (⌈x⌉ : K)

/-- Storing a python float into an array: `int(inf)` raises `OverflowError`, `int(nan)` raises `ValueError`,
`bool(inf)` and `bool(nan)` are `True`. -/
def Dt.scalar [FloorRing K] : Dt → XR K → Py (XR K)
  | .float, v => .ok v
  | .int, .fin x => .ok (.fin (trunc x))
  | .int, .nan => .error .valueError
  | .int, .pinf => .error .overflowError
  | .int, .ninf => .error .overflowError
  | .bool, v => .ok (truth v)

/-- Storing the elements of a float array (`casting='unsafe'`): nothing raises; non-finite values become the smallest
64 bit integer. -/
def Dt.array [FloorRing K] : Dt → XR K → XR K
  | .float, v => v
  | .int, .fin x => .fin (trunc x)
  | .int, _ => .fin (-(2 ^ 63))
  | .bool, v => truth v

/-- `+=` between two arrays of this element type (for booleans it is the logical or). Overflow of integers is not
modelled. -/
def Dt.add (dt : Dt) (a b : XR K) : XR K :=
  match dt with
  | .bool => if a = .fin 0 ∧ b = .fin 0 then .fin 0 else .fin 1
  | _ => XR.add a b

/-- `np.fill_diagonal(D, v)`; `v` gets converted first. -/
def fillDiagonal [FloorRing K] (dt : Dt) {n : ℕ} (D : Fin n → Fin n → XR K) (v : XR K) : Py (Fin n → Fin n → XR K) := do
  let v ← dt.scalar v
  pure (Np.fillDiagonal D v)

/-- Dense branch of `_mutual_proximity_empiric_full` (`/repo/hub_toolbox/global_scaling.py` lines 271-299). -/
def mpEmpiric [FloorRing K] (dt : Dt) {n : ℕ} (metric : String) (D : Fin n → Fin n → XR K) :
    Py (Fin n → Fin n → XR K) := do
  let D ← fillDiagonal dt D (MPEmp.excludeValue metric)
  let M := ((List.finRange n).take (n - 1)).foldl (fun (M : Fin n → Fin n → XR K) (i : Fin n) =>
    Np.setRowFrom M i (i.val + 1) (fun j => dt.array (.fin (MPEmp.entry metric (D i) (D j) (D j i)))))
    (fun _ _ => .fin 0)
  fillDiagonal dt (fun i j => dt.add (M i j) (M j i)) (.fin (MPEmp.selfValue metric))

/-- `shared_nearest_neighbors` with `n_jobs=1` (`/repo/hub_toolbox/shared_neighbors.py` lines 242-254, 274-295). The
array `knn` is boolean anyway. -/
def snn [FloorRing K] (dt : Dt) (o : ArgPart (XR K)) {n : ℕ} (D : Fin n → Fin n → XR K) (k : ℤ) (metric : String) :
    Py (Fin n → Fin n → XR K) := do
  let D ← fillDiagonal dt D (SNN.exclude metric)
  let sel ← Np.tabulateM (fun i => SNN.hood o metric (SNN.kthOf metric n k) k (D i))
  let knn := SNN.markSerial sel
  let M := (List.finRange n).foldl (fun (M : Fin n → Fin n → XR K) (i : Fin n) =>
    Np.setRowFrom M i (i.val + 1) (fun j => dt.array (SNN.entry metric k (SNN.overlap (knn i) (knn j)))))
    (fun _ _ => .fin 0)
  fillDiagonal dt (fun i j => dt.add (M i j) (M j i)) (SNN.selfValue metric)

/-- `_hubness_no_multiprocessing` for a square dense matrix (`/repo/hub_toolbox/hubness.py` lines 230-302):
`fill_diagonal`, the replacement of non-finite values and `d[i] = d_self` all store `d_self`. -/
noncomputable def hubness [FloorRing K] (dt : Dt) (o : ArgPart (XR K)) (rnd : Hubness.Rnd) {n : ℕ}
    (D : Fin n → Fin n → XR K) (k : ℤ) (metric : String) (shuffle : Bool) : Py (Hubness.Res n) := do
  checkValidMetric metric
  let k := Hubness.reduceK k n
  if k < 0 then throw .valueError
  let k := k.toNat
  let dself : XR K ← dt.scalar (Hubness.dSelf metric)
  let kth := Np.arange (Hubness.kthStart metric n k) k
  let D := Hubness.prepare false dself D
  let Dk ← (List.finRange n).foldlM (fun (Dk : Fin n → Fin k → ℕ) (i : Fin n) => do
      let row ← Hubness.selectRow o shuffle (rnd i n) kth (metric = "similarity")
        (Hubness.rowValues metric dself D i)
      pure (Function.update Dk i row)) (fun _ _ => 0)
  pure (Hubness.finish n Dk)

end

/-- `local_scaling` with `n_jobs=1` (`/repo/hub_toolbox/local_scaling.py` lines 224-262, 272-291, 309-311). `tmp` is a
float array; the radii have the element type of `D`, which does not matter for their products (booleans multiply like
0 and 1). -/
noncomputable def localScaling (dt : Dt) (o : ArgPart (XR ℝ)) {n : ℕ} (D : Fin n → Fin n → XR ℝ) (k : ℤ)
    (metric : String) (test : Option (List ℤ)) : Py (Fin n → Fin n → XR ℝ) := do
  let D ← fillDiagonal dt D (LS.exclude metric)
  let r ← LS.radiiSerial o D (LS.trainInd n test) (LS.kthOf metric n k)
  let M := (List.finRange n).foldl (fun (M : Fin n → Fin n → XR ℝ) (i : Fin n) =>
    Np.setRowFrom M i i.val (fun j => dt.array (LS.tmpRow metric D r i j))) (fun _ _ => .fin 0)
  fillDiagonal dt (fun i j => dt.add (M i j) (M j i)) (LS.selfValue metric)

end HubToolbox.Dtype
