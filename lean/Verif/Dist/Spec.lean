import Mathlib.Analysis.Real.Sqrt
import Mathlib.Analysis.SpecialFunctions.Pow.Real
import Mathlib.Data.Finset.Card
import Mathlib.Data.Fintype.Basic
import Mathlib.Algebra.BigOperators.Group.Finset.Basic

/-!
# Specification of distances
-/

set_option autoImplicit false

namespace HubToolbox.Spec

/-- Euclidean norm. -/
noncomputable def vecNorm {d : ℕ} (x : Fin d → ℝ) : ℝ := √(∑ f, x f ^ 2)

/-- Cosine of the angle between two vectors. -/
noncomputable def cosAngle {d : ℕ} (x y : Fin d → ℝ) : ℝ := (∑ f, x f * y f) / (vecNorm x * vecNorm y)

/-- Minkowski distance of order `p`. -/
noncomputable def minkowski {d : ℕ} (p : ℝ) (x y : Fin d → ℝ) : ℝ := (∑ f, |x f - y f| ^ p) ^ (1 / p)

end HubToolbox.Spec

namespace HubToolbox.Spec

/-- Power mean with exponent `p`, as in the definition of m_p dissimilarity (Aryal et al. 2017). -/
noncomputable def powerMean {d : ℕ} (p : ℝ) (u : Fin d → ℝ) : ℝ := ((∑ i, u i ^ p) / d) ^ (1 / p)

/-- Number of objects of a data set whose bin is between the bins `a` and `b`, including both. -/
def regionCount {n : ℕ} (bin : Fin n → ℕ) (a b : ℕ) : ℕ :=
  (Finset.univ.filter (fun j => min a b ≤ bin j ∧ bin j ≤ max a b)).card

/-- Which of `B` bins of the same width between `lo` and `hi` a value belongs to; values outside belong to the first or last
bin. -/
noncomputable def rangeBin (lo hi : ℝ) (B : ℕ) (x : ℝ) : ℤ := max 0 (min (B - 1) ⌊(x - lo) * B / (hi - lo)⌋)

end HubToolbox.Spec
