import Verif.Rounding.Sum
import Verif.IntDim.Model

/-!
# `intrinsic_dimension` with rounding

As in `Verif/IntDim/Model.lean`, with all results of arithmetic operations rounded, for `estimator='levina'`, `metric='vector'` and `trafo=None`.
-/

set_option autoImplicit false

namespace HubToolbox.Rounding

open HubToolbox

/-- Functions of numpy as computed: logarithm, sums and inner products (BLAS). -/
structure IdLib where
  log : XR ℝ → XR ℝ
  sum : List (XR ℝ) → XR ℝ
  dot : List (XR ℝ) → List (XR ℝ) → XR ℝ

/-- `X2 = (X**2).sum(1)` (`/repo/hub_toolbox/intrinsic_dimension.py` line 105). -/
noncomputable def idNorm2 (R : Rounding ℝ) (L : IdLib) {n m : ℕ} (X : Fin n → Fin m → XR ℝ) (i : Fin n) : XR ℝ :=
  L.sum (List.ofFn fun f => R.mul (X i f) (X i f))

/-- `X2.reshape(-1, 1) + X2 - 2*np.dot(X, X.T)` (`/repo/hub_toolbox/intrinsic_dimension.py` line 108; line 116 is the same by rows). -/
noncomputable def idDist (R : Rounding ℝ) (L : IdLib) {n m : ℕ} (X : Fin n → Fin m → XR ℝ) (i j : Fin n) : XR ℝ :=
  R.sub (R.add (R.idNorm2 L X i) (R.idNorm2 L X j)) (R.mul (.fin 2) (L.dot (List.ofFn (X i)) (List.ofFn (X j))))

/-- `distance[distance <= 0] = 1e-7` (`/repo/hub_toolbox/intrinsic_dimension.py` lines 111, 118). -/
noncomputable def idFix (R : Rounding ℝ) (a : XR ℝ) : XR ℝ := if XR.fle a (.fin 0) then R.rnd (1 / 10 ^ 7) else a

/-- `.5 * np.log(distance[1:k2+1])` of the sorted distances (`/repo/hub_toolbox/intrinsic_dimension.py` lines 109-112, 116-119). -/
noncomputable def idLog (R : Rounding ℝ) (L : IdLib) {n : ℕ} (d : Fin n → XR ℝ) (c : ℕ) : XR ℝ :=
  R.mul (.fin (1 / 2)) (L.log (((Np.sort (List.ofFn d)).map R.idFix).getD (c + 1) (.fin 0)))

/-- `np.cumsum` of a row (`/repo/hub_toolbox/intrinsic_dimension.py` line 143): from left to right. -/
noncomputable def idCumsum (R : Rounding ℝ) (a : ℕ → XR ℝ) : ℕ → XR ℝ
  | 0 => a 0
  | c + 1 => R.add (idCumsum R a c) (a (c + 1))

/-- `-(indexk - 2) / (S[:, k1-1:k2] - knnmatrix[:, k1-1:k2] * indexk)` for `k` neighbours and the logarithms `a` of a row
(`/repo/hub_toolbox/intrinsic_dimension.py` lines 144-145). -/
noncomputable def idHat (R : Rounding ℝ) (a : ℕ → XR ℝ) (k : ℕ) : XR ℝ :=
  R.div (R.rnd (-((k : ℝ) - 2))) (R.sub (R.idCumsum a (k - 1)) (R.mul (a (k - 1)) (R.ofNat k)))

/-- `dhat.mean()` (`/repo/hub_toolbox/intrinsic_dimension.py` line 148); `w` values of `k` from `k1` on. -/
noncomputable def idLevina (R : Rounding ℝ) (L : IdLib) {n : ℕ} (a : Fin n → ℕ → XR ℝ) (k1 w : ℕ) : XR ℝ :=
  R.div (L.sum ((List.finRange n).flatMap fun i => (List.range w).map fun b => R.idHat (a i) (k1 + b))) (R.ofNat (n * w))

/-- `intrinsic_dimension(X, k1, k2, 'levina', 'vector', None)` for an array of floats (`/repo/hub_toolbox/intrinsic_dimension.py` lines 24-154). -/
noncomputable def intrinsicDimension (R : Rounding ℝ) (L : IdLib) (S : IntDim.LexSort) {n m : ℕ} (X : Fin n → Fin m → ℝ) (k1 k2 : ℤ) : Py (XR ℝ) :=
  if k1 < 1 ∨ k2 < k1 ∨ (n : ℤ) ≤ k2 then .error .valueError
  else if m = 0 then .error .typeError
  else
    let Y : Fin n → Fin m → XR ℝ := fun i f => .fin (X (S.run X i) f)
    .ok (R.idLevina L (fun i => R.idLog L (R.idDist L Y i)) k1.toNat (k2 + 1 - k1).toNat)

end HubToolbox.Rounding
