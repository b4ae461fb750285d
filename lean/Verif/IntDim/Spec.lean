import Mathlib.Analysis.SpecialFunctions.Log.Basic
import Mathlib.Algebra.BigOperators.Fin

/-!
# The estimator of Levina and Bickel
-/

set_option autoImplicit false

namespace HubToolbox.IntDim.Spec

/-- Euclidean distance. -/
noncomputable def dist {m : ℕ} (x y : Fin m → ℝ) : ℝ := √(∑ f, (x f - y f) ^ 2)

/-- `T` lists the distances of point `i` to all other points in ascending order; `T 0` is that of the nearest neighbour. -/
def Neighbours {n m : ℕ} (X : Fin n → Fin m → ℝ) (i : Fin n) (T : ℕ → ℝ) : Prop :=
  (∀ a b, a ≤ b → b + 1 < n → T a ≤ T b) ∧
  (Multiset.range (n - 1)).map T = (Finset.univ.erase i).val.map fun j => dist (X i) (X j)

/-- Sum of the logarithms of `T_k / T_j` over the neighbours before the `k`-th. -/
noncomputable def logRatios (T : ℕ → ℝ) (k : ℕ) : ℝ := ∑ j ∈ Finset.range (k - 1), Real.log (T (k - 1) / T j)

/-- Average of the local estimates `(k - 2) / logRatios` over points and `k = k1, …, k2`. -/
noncomputable def levina {n : ℕ} (T : Fin n → ℕ → ℝ) (k1 k2 : ℕ) : ℝ :=
  (∑ i, ∑ k ∈ Finset.Icc k1 k2, ((k : ℝ) - 2) / logRatios (T i) k) / (n * (k2 + 1 - k1))

/-- Average over `k` of the estimates with inverses averaged over points. -/
noncomputable def mackay {n : ℕ} (T : Fin n → ℕ → ℝ) (k1 k2 : ℕ) : ℝ :=
  (∑ k ∈ Finset.Icc k1 k2, ((k : ℝ) - 2) / ((∑ i, logRatios (T i) k) / n)) / (k2 + 1 - k1)

/-- The two estimators. -/
noncomputable def estimate {n : ℕ} (estimator : String) (T : Fin n → ℕ → ℝ) (k1 k2 : ℕ) : ℝ :=
  if estimator = "levina" then levina T k1 k2 else mackay T k1 k2

/-- Mean of a feature over all points. -/
noncomputable def featureMean {n m : ℕ} (X : Fin n → Fin m → ℝ) (f : Fin m) : ℝ := (∑ i, X i f) / n

/-- Population variance of a feature. -/
noncomputable def featureVariance {n m : ℕ} (X : Fin n → Fin m → ℝ) (f : Fin m) : ℝ :=
  (∑ i, X i f ^ 2) / n - featureMean X f ^ 2

/-- All features divided by `scale + 10⁻⁷` after subtracting the mean; `scale` is a function of the variance. -/
noncomputable def standardised {n m : ℕ} (scale : ℝ → ℝ) (X : Fin n → Fin m → ℝ) : Fin n → Fin m → ℝ := fun i f =>
  (X i f - featureMean X f) / (scale (featureVariance X f) + 1 / 10 ^ 7)

end HubToolbox.IntDim.Spec
