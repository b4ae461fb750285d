import Verif.Heap.Base
import Mathlib.Algebra.Order.Field.Basic
import Mathlib.Algebra.BigOperators.Group.Finset.Basic
import Mathlib.Data.Fintype.Basic
import Mathlib.Algebra.BigOperators.Ring.Finset
import Mathlib.Algebra.Order.BigOperators.Ring.Finset
import Mathlib.Tactic.Ring

/-!
# The training data which `SuQHR` keeps

`fit` keeps the training vectors for `transform`: a copy of them, or a reference to the array of the caller.
-/

set_option autoImplicit false

namespace HubToolbox.Heap

variable {K : Type} [Field K] [LinearOrder K]

/-- `row_norms(X, squared=True)` for one row. -/
def sqNorm {f : ℕ} (x : Fin f → K) : K := ∑ c, x c ^ 2

/-- `euclidean_distances(X, Y, Y_norm_squared=.., squared=True)` for one pair: scikit-learn does not recompute the given norm, and replaces
negative results by zero. -/
def euclidWithNorm {f : ℕ} (x y : Fin f → K) (normY : K) : K := max (sqNorm x - 2 * ∑ c, x c * y c + normY) 0

/-- What `fit` stores: `X_train_` and `X_train_norm_squared_`. -/
structure Kept (f : ℕ) (K : Type) where
  s : ℕ
  X : Arr s f
  norms : Option (Fin s → K)

/-- `check_array(X, dtype=np.float32)` (`/repo/hub_toolbox/approximate.py` lines 1410-1411): the array itself if it has that type, a
converted copy otherwise. Simplification: the conversion does not round. -/
def checkArray (float32 : Bool) {n f : ℕ} (X : Arr n f) : M K (Arr n f) := if float32 then pure X else copy X

/-- `fit` (`/repo/hub_toolbox/approximate.py` lines 1408-1437) with `hr_algorithm=None` (lines 792-825) and fixed vantage points. `sampled` are the rows drawn by random sampling (line 578: indexing by an array copies) or
kmeans++ (lines 279 and 344: copied to a new array), `none` without sampling. -/
def fitH (metric : String) (float32 : Bool) {n f : ℕ} (sampled : Option (Σ s : ℕ, Fin s → Fin n)) (X : Arr n f) : M K (Kept f K) := do
  let X ← checkArray float32 X
  match sampled with
  | none => do
    let x ← read X
    pure ⟨n, X, if metric = "sqeuclidean" then some (fun i => sqNorm (x i)) else none⟩
  | some ⟨s, ind⟩ => do
    let x ← read X
    let V ← new (fun i => x (ind i))
    pure ⟨s, V, if metric = "sqeuclidean" then some (fun i => sqNorm (x (ind i))) else none⟩

/-- `transform` (`/repo/hub_toolbox/approximate.py` lines 827-859, 1442-1495) of that estimator: one row of distances to the kept rows per row
of the argument. `cosine` stands for `cosine_distances` of two rows. Norms which are not given are computed from the present rows. -/
def transformH (cosine : {f : ℕ} → (Fin f → K) → (Fin f → K) → K) (metric : String) {t f : ℕ} (e : Kept f K) (T : Arr t f) :
    M K (Fin t → Fin e.s → K) := do
  let x ← read T
  let y ← read e.X
  pure (fun i j => if metric = "cosine" then cosine (x i) (y j) else
    euclidWithNorm (x i) (y j) (match e.norms with | some norms => norms j | none => sqNorm (y j)))

end HubToolbox.Heap
