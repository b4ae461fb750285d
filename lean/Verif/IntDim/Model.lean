import Verif.NpSort
import Verif.XRArith
import Mathlib.Data.Fin.Tuple.Sort
import Mathlib.Order.PiLex

/-!
# Model of `hub_toolbox/intrinsic_dimension.py`

Vector data are matrices of finite real numbers, arithmetic is exact. The sign of zero is not modelled: the estimate for two
neighbours is `-0.0` in the code and `0` here; this makes no difference to the means taken afterwards.
-/

set_option autoImplicit false

namespace HubToolbox.IntDim

open HubToolbox

/-- `np.lexsort(np.fliplr(X).T)`: some order of the rows which makes them lexicographically ascending
(`/repo/hub_toolbox/intrinsic_dimension.py` line 90). Rows of the same content are exchangeable. -/
structure LexSort where
  run : ∀ {n m : ℕ}, (Fin n → Fin m → ℝ) → Equiv.Perm (Fin n)
  sorted : ∀ {n m : ℕ} (X : Fin n → Fin m → ℝ) (i j : Fin n), i ≤ j → toLex (X (run X i)) ≤ toLex (X (run X j))

/-- There is such a sort. -/
noncomputable def LexSort.stable : LexSort where
  run X := Tuple.sort fun i => toLex (X i)
  sorted X _ _ h := Tuple.monotone_sort (fun i => toLex (X i)) h

/-- `X.mean(axis=0)`. -/
noncomputable def colMean {n m : ℕ} (X : Fin n → Fin m → ℝ) (f : Fin m) : ℝ := (∑ i, X i f) / n

/-- `X.var(axis=0)`. -/
noncomputable def colVar {n m : ℕ} (X : Fin n → Fin m → ℝ) (f : Fin m) : ℝ := (∑ i, (X i f - colMean X f) ^ 2) / n

/-- `X -= X.mean(axis=0)` (`/repo/hub_toolbox/intrinsic_dimension.py` lines 95, 99). -/
noncomputable def centre {n m : ℕ} (X : Fin n → Fin m → ℝ) : Fin n → Fin m → ℝ := fun i f => X i f - colMean X f

/-- Parameter `trafo` (`/repo/hub_toolbox/intrinsic_dimension.py` lines 92-102). -/
noncomputable def transform {n m : ℕ} (trafo : Option String) (X : Fin n → Fin m → ℝ) : Py (Fin n → Fin m → ℝ) :=
  match trafo with
  | none => .ok X
  | some t =>
    if t = "var" then .ok fun i f => centre X i f / (colVar (centre X) f + 1 / 10 ^ 7)
    else if t = "std" then .ok fun i f => centre X i f / (√(colVar (centre X) f) + 1 / 10 ^ 7)
    else .error .valueError

/-- `X2 = (X**2).sum(1)` (`/repo/hub_toolbox/intrinsic_dimension.py` line 105). -/
noncomputable def norm2 {n m : ℕ} (X : Fin n → Fin m → ℝ) (i : Fin n) : ℝ := ∑ f, X i f ^ 2

/-- `X2.reshape(-1, 1) + X2 - 2*np.dot(X, X.T)` (`/repo/hub_toolbox/intrinsic_dimension.py` line 108) and, by rows,
`X2[i] + X2 - 2 * np.dot(X, X[i, :])` (`/repo/hub_toolbox/intrinsic_dimension.py` line 116). -/
noncomputable def sqDist {n m : ℕ} (X : Fin n → Fin m → ℝ) (i j : Fin n) : ℝ :=
  norm2 X i + norm2 X j - 2 * ∑ f, X i f * X j f

/-- `distance[distance <= 0] = 1e-7` (`/repo/hub_toolbox/intrinsic_dimension.py` lines 111, 118). -/
noncomputable def fix (x : ℝ) : ℝ := if x ≤ 0 then 1 / 10 ^ 7 else x

/-- `.5 * np.log(distance[1:k2+1])` of the sorted distances (`/repo/hub_toolbox/intrinsic_dimension.py` lines 112,
119). Columns are numbered by naturals, those from `k2` on are never used. -/
noncomputable def logRow {n : ℕ} (d : Fin n → ℝ) (c : ℕ) : ℝ :=
  1 / 2 * Real.log (((Np.sort (List.ofFn d)).map fix).getD (c + 1) 0)

/-- `knnmatrix` (`/repo/hub_toolbox/intrinsic_dimension.py` lines 107-119): all rows at once, or one after the other
into an array of zeros. -/
noncomputable def knnMatrix {n m : ℕ} (mem : ℤ) (X : Fin n → Fin m → ℝ) : Fin n → ℕ → ℝ :=
  if (n : ℤ) ≤ mem then fun i => logRow (sqDist X i)
  else (List.finRange n).foldl (fun M i => Function.update M i (logRow fun j => norm2 X i + norm2 X j - 2 * ∑ f, X j f * X i f))
    (fun _ _ => 0)

/-- `dhat` for `k = k1 + b` neighbours (`/repo/hub_toolbox/intrinsic_dimension.py` lines 143-145); `S =
np.cumsum(knnmatrix, 1)`. -/
noncomputable def dhat {n : ℕ} (knn : Fin n → ℕ → ℝ) (k1 : ℕ) (i : Fin n) (b : ℕ) : XR ℝ :=
  XR.div (.fin (-(((k1 + b : ℕ) : ℝ) - 2)))
    (.fin ((∑ c ∈ Finset.range (k1 + b), knn i c) - knn i (k1 + b - 1) * ((k1 + b : ℕ) : ℝ)))

/-- `dhat.mean()` (`/repo/hub_toolbox/intrinsic_dimension.py` line 148); `w` values of `k`. -/
noncomputable def levina {n : ℕ} (w : ℕ) (d : Fin n → ℕ → XR ℝ) : XR ℝ :=
  XR.div (XR.sum fun i => XR.sum fun b : Fin w => d i b) (.fin ((n * w : ℕ) : ℝ))

/-- Mean of the inverses (`/repo/hub_toolbox/intrinsic_dimension.py` lines 151-153). -/
noncomputable def mackay {n : ℕ} (w : ℕ) (d : Fin n → ℕ → XR ℝ) : XR ℝ :=
  XR.mean fun b : Fin w => XR.div (.fin 1) (XR.mean fun i => XR.div (.fin 1) (d i b))

/-- `intrinsic_dimension` (`/repo/hub_toolbox/intrinsic_dimension.py` lines 24-154). Not modelled: input which is not
two-dimensional. -/
noncomputable def intrinsicDimension (L : LexSort) {n m : ℕ} (X : Fin n → Fin m → ℝ) (k1 k2 : ℤ) (estimator metric : String)
    (trafo : Option String) (mem : ℤ) : Py (XR ℝ) := do
  if ¬(estimator = "levina" ∨ estimator = "mackay") then .error .valueError
  else if k1 < 1 ∨ k2 < k1 ∨ (n : ℤ) ≤ k2 then .error .valueError
  else if metric = "vector" then
    if m = 0 then .error .typeError
    else do
      let X ← transform trafo (fun i => X (L.run X i))
      let d := dhat (knnMatrix mem X) k1.toNat
      let w := (k2 + 1 - k1).toNat
      if estimator = "levina" then .ok (levina w d) else .ok (mackay w d)
  else if metric = "distance" ∨ metric = "similarity" then .error .notImplementedError
  else .error .valueError

end HubToolbox.IntDim
