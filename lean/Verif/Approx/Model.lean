import Verif.XRArith
import Verif.NpSort
import Mathlib.Data.List.ProdSigma

/-!
# Model of `hub_toolbox/approximate.py`, part 1: finite distances and empirical Mutual Proximity

As everywhere, arithmetic is exact and the conversion of data and distances to `float32` is not modelled.
-/

set_option autoImplicit false

namespace HubToolbox

/-- `np.minimum`-like comparison step: `nan` wins. -/
def XR.fmin {K : Type} [LinearOrder K] (a b : XR K) : XR K := if a = .nan ∨ b = .nan then .nan else min a b

/-- `np.maximum`-like comparison step: `nan` wins. -/
def XR.fmax {K : Type} [LinearOrder K] (a b : XR K) : XR K := if a = .nan ∨ b = .nan then .nan else max a b

namespace Np

/-- `np.min` of all values; there is no minimum of nothing (`ValueError`). -/
def amin {K : Type} [LinearOrder K] : List (XR K) → Option (XR K)
  | [] => none
  | a :: l => some (l.foldl XR.fmin a)

/-- `np.max` of all values. -/
def amax {K : Type} [LinearOrder K] : List (XR K) → Option (XR K)
  | [] => none
  | a :: l => some (l.foldl XR.fmax a)

/-- `arr.ravel()`. -/
def ravel {α : Type} {n m : ℕ} (a : Fin n → Fin m → α) : List α :=
  (List.finRange n ×ˢ List.finRange m).map (fun p => a p.1 p.2)

end Np

namespace Approx

variable {K : Type} [Field K] [LinearOrder K]

/-- `enforce_finite_distances` (`/repo/hub_toolbox/approximate.py` lines 54-71). The argument is modified in place and
returned; `arr.min()` raises `ValueError` for an empty array. -/
def enforceFinite {n m : ℕ} (arr : Fin n → Fin m → XR K) : Py (Fin n → Fin m → XR K) :=
  let finite := (Np.ravel arr).filter (fun x => x.isFinite)
  let nonfinite := (Np.ravel arr).filter (fun x => !x.isFinite)
  let arr := if nonfinite = [] then arr else
    let dMax : XR K := (Np.amax finite).getD (.fin 1)
    fun i => Np.replaceNonFinite (arr i) dMax
  match Np.amin (Np.ravel arr) with
  | none => .error .valueError
  | some arrMin =>
    if XR.flt arrMin (.fin 0) then .ok (fun i j => XR.add (arr i j) (XR.neg arrMin)) else .ok arr

end Approx
end HubToolbox
