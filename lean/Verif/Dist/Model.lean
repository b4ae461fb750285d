import Verif.XRArith
import Verif.LS.Model
import Mathlib.Analysis.SpecialFunctions.Pow.Real

/-!
# Model of `hub_toolbox/distances.py`, part 1

Vectors have finite entries. Functions of scipy and scikit-learn are modelled by the formulas in their documentation.
-/

set_option autoImplicit false

namespace HubToolbox.Dist

/-! ### Cosine distance -/

/-- `np.sqrt(np.sum(X**2, 1))` (`/repo/hub_toolbox/distances.py` line 30). -/
noncomputable def norms {n d : ℕ} (X : Fin n → Fin d → ℝ) (i : Fin n) : XR ℝ :=
  XR.sqrt (XR.sum (fun f => .fin (X i f ^ 2)))

/-- `1. - Y.dot(Y.T)` with negative values set to zero (`/repo/hub_toolbox/distances.py` lines 31-35). -/
noncomputable def cosineRaw {n d : ℕ} (X : Fin n → Fin d → ℝ) (i j : Fin n) : XR ℝ :=
  let Y : Fin n → Fin d → XR ℝ := fun i f => XR.div (.fin (X i f)) (norms X i)
  let v := XR.sub (.fin 1) (XR.sum (fun f => XR.mul (Y i f) (Y j f)))
  if XR.flt v (.fin 0) then .fin 0 else v

/-- `np.triu(D, 1)`. -/
def triu1 {n : ℕ} (D : Fin n → Fin n → XR ℝ) (i j : Fin n) : XR ℝ := if i < j then D i j else .fin 0

/-- `cosine_distance` (`/repo/hub_toolbox/distances.py` lines 28-37). -/
noncomputable def cosineDistance {n d : ℕ} (X : Fin n → Fin d → ℝ) (i j : Fin n) : XR ℝ :=
  XR.add (triu1 (cosineRaw X) i j) (triu1 (cosineRaw X) j i)

/-! ### Minkowski distances -/

/-- `squareform(pdist(X, 'euclidean'))` (`/repo/hub_toolbox/distances.py` lines 39-44): the distance is computed for `i < j`
only. -/
noncomputable def euclideanDistance {n d : ℕ} (X : Fin n → Fin d → ℝ) (i j : Fin n) : ℝ :=
  let pdist : Fin n → Fin n → ℝ := fun i j => √(∑ f, (X i f - X j f) ^ 2)
  if i < j then pdist i j else if j < i then pdist j i else 0

/-- `pairwise_distances(X, Y, metric='l1')` of scikit-learn. -/
noncomputable def pairwiseL1 {d : ℕ} (x y : Fin d → ℝ) : ℝ := ∑ f, |x f - y f|

/-- `pairwise_distances(X, Y, metric='l2')` of scikit-learn, computed from norms and inner products; negative values under
the root are set to zero. -/
noncomputable def pairwiseL2 {d : ℕ} (x y : Fin d → ℝ) : ℝ :=
  √(max (∑ f, x f * x f - 2 * ∑ f, x f * y f + ∑ f, y f * y f) 0)

/-- `pairwise_distances(X, Y, metric='minkowski', p=p)` of scikit-learn, i.e. `cdist` of scipy. -/
noncomputable def pairwiseMinkowski {d : ℕ} (p : ℝ) (x y : Fin d → ℝ) : ℝ := (∑ f, |x f - y f| ^ p) ^ (1 / p)

/-- `lp_norm` (`/repo/hub_toolbox/distances.py` lines 46-91). `Y = none` means distances within `X`; the result for it has
one column per row of `X`, hence the type with `m` columns is obtained with `Y = X`. scipy rejects `p < 1`. The number of
jobs is passed on to scikit-learn. -/
noncomputable def lpNorm {n m d : ℕ} (X : Fin n → Fin d → ℝ) (Y : Fin m → Fin d → ℝ) (p : Option ℝ) :
    Py (Fin n → Fin m → ℝ) :=
  match p with
  | none => .error .valueError
  | some p =>
    if p = 1 then .ok (fun i j => pairwiseL1 (X i) (Y j))
    else if p = 2 then .ok (fun i j => pairwiseL2 (X i) (Y j))
    else if p < 1 then .error .valueError
    else .ok (fun i j => pairwiseMinkowski p (X i) (Y j))

/-! ### Sampled distances -/

/-- The values python accepts as size of a sample: an `int`, a `float`, or an integer of numpy (which is not an `int`). -/
inductive SampleSize where
  | int (s : ℤ)
  | float (x : ℚ)
  | npInt (s : ℤ)

/-- `if not isinstance(sample_size, int): sample_size = int(sample_size * n)` (`/repo/hub_toolbox/distances.py` lines
325-326); `int` rounds towards zero. -/
def sampleSize (n : ℕ) : SampleSize → ℤ
  | .int s => s
  | .float x => Int.tdiv (x * n).num (x * n).den
  | .npInt s => s * n

/-- `sample_distance` (`/repo/hub_toolbox/distances.py` lines 269-356). `split` is `StratifiedShuffleSplit`: it returns the
indices of the sample or raises `ValueError`; `dist` is `cdist`. The number of labels is `l`. -/
def sampleDistance {P K : Type} {n : ℕ} (l : ℕ) (split : ℤ → Py (List (Fin n))) (dist : P → P → K) (X : Fin n → P)
    (size : SampleSize) (strategy : String) : Py (Σ s, (Fin n → Fin s → K) × (Fin s → Fin n)) :=
  if l ≠ n then .error .typeError
  else if strategy = "a" then
    match split (sampleSize n size) with
    | .error e => .error e
    | .ok ys => .ok ⟨ys.length, fun i j => dist (X i) (X (ys.get j)), fun j => ys.get j⟩
  else .error .notImplementedError

end HubToolbox.Dist
