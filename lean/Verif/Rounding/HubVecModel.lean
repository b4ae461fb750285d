import Verif.Rounding.CosineError
import Verif.HubClass.Model

/-!
# Class `Hubness` on vectors with rounding

As in `Verif/HubClass/Model.lean` for `metric='euclidean'`, with squared distances as scikit-learn computes them. The numbers of
occurrences are integers; the statistics derived from them are those of the exact model.
-/

set_option autoImplicit false

namespace HubToolbox.Rounding

/-- Results of matrix multiplication (BLAS) and of `row_norms`. They may depend on the position of a vector in a batch, on block sizes
and on threads, hence they are given for each pair of objects. -/
structure Products (K : Type) (n m : ℕ) where
  dot : Fin n → Fin m → XR K
  sqX : Fin n → XR K
  sqY : Fin m → XR K

section
variable {K : Type} [Field K] [LinearOrder K]

/-- `pairwise_distances(X[…], Y, 'euclidean', squared=True, X_norm_squared=…, Y_norm_squared=…)`, used in
`/repo/hub_toolbox/hubness.py` lines 52-55 and 503-507. scikit-learn: `distances = X.dot(Y.T)`, `distances *= -2`, `distances += XX`,
`distances += YY`, `np.maximum(distances, 0)`. The distance of a vector to itself is treated like the others, since `X[…]` is another
array than `Y`. -/
def sqDistances (R : Rounding K) {n m : ℕ} (L : Products K n m) : Fin n → Fin m → XR K := fun i j =>
  let z := R.add (R.add (R.mul (.fin (-2)) (L.dot i j)) (L.sqX i)) (L.sqY j)
  if XR.flt z (.fin 0) then .fin 0 else z

/-- `Hubness(metric='euclidean', …).fit_transform(X, Y)` (`/repo/hub_toolbox/hubness.py` lines 484-532 and 671-734). `self` tells that no
`Y` was given. -/
noncomputable def fitVectors {F : Type} [Field F] [LinearOrder F] (R : Rounding K) (w : HubClass.World K) (P : HubClass.Params F) (bs : ℕ)
    (self : Bool) {n m : ℕ} (L : Products K n m) : Py (HubClass.Fit F) :=
  match P.k with
  | none => .error .typeError
  | some k => do
    let start := if self then 1 else 0
    let rows ←
      if bs = 0 then .error .overflowError
      else if P.nJobs = 1 then HubClass.serialNN w.argpart start k.toNat bs (R.sqDistances L)
      else HubClass.parallelNN w.argpart start k.toNat bs (w.sched n k.toNat) (R.sqDistances L)
    pure (HubClass.stats P.hubSize k.toNat n m (HubClass.ravel rows))

end

end HubToolbox.Rounding
