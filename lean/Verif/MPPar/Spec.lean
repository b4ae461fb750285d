import Verif.LS.Spec
import Mathlib.Analysis.Real.Sqrt
import Mathlib.NumberTheory.Harmonic.EulerMascheroni
import Mathlib.Analysis.SpecialFunctions.Trigonometric.Basic

/-!
# Specification for Mutual Proximity with independent normal or Gamma distributions

Nothing here mentions the model of the code.
-/

set_option autoImplicit false

namespace HubToolbox.Spec

/-- Variance of `f` over a finite set. -/
noncomputable def variance {ι : Type} (N : Finset ι) (f : ι → ℝ) : ℝ :=
  (∑ j ∈ N, (f j - meanOver N f) ^ 2) / N.card

/-- Unbiased variance of `f` over a finite set with more than one element. -/
noncomputable def sampleVariance {ι : Type} (N : Finset ι) (f : ι → ℝ) : ℝ :=
  (∑ j ∈ N, (f j - meanOver N f) ^ 2) / ((N.card : ℝ) - 1)

/-- Standard deviation. -/
noncomputable def stdDev {ι : Type} (N : Finset ι) (f : ι → ℝ) : ℝ := √(variance N f)

/-- A vanishing spread is replaced by a tiny one. -/
noncomputable def guard (x : ℝ) : ℝ := if x = 0 then 1 / 10 ^ 7 else x

/-- Mutual Proximity of independent variables: `p`, `q` are the probabilities of being at most `x` under the distribution
of either object. As a similarity it is the probability that both are at most `x`, as a distance the probability
that not both are larger. -/
noncomputable def mutualProximity (metric : String) (p q : ℝ) : ℝ :=
  if metric = "similarity" then p * q else 1 - (1 - p) * (1 - q)

/-- Similarity or distance of an object to itself. -/
def ownValue (metric : String) : ℝ := if metric = "similarity" then 1 else 0

/-- The two metrics known to the library. -/
def IsMetric (metric : String) : Prop := metric = "similarity" ∨ metric = "distance"

/-- Probability of a value of at most `x` under the normal distribution fitted to the values `f` on `N`; `φ` is the
standard normal distribution function. -/
noncomputable def normalProb {ι : Type} (φ : ℝ → ℝ) (N : Finset ι) (f : ι → ℝ) (x : ℝ) : ℝ :=
  φ ((x - meanOver N f) / guard (stdDev N f))

/-- Probability of a value of at most `x` under the Gamma distribution fitted by moments to the values `f` on `N`; `γ a` is
the distribution function of the Gamma distribution of shape `a` and scale one. -/
noncomputable def gammaProb {ι : Type} (γ : ℝ → ℝ → ℝ) (N : Finset ι) (f : ι → ℝ) (x : ℝ) : ℝ :=
  γ (meanOver N f ^ 2 / guard (sampleVariance N f)) (max x 0 / (guard (sampleVariance N f) / meanOver N f))

/-- Gumbel distribution function at `x`, where mean `μ` and standard deviation `σ` are those of `f` on `N`: scale
`β = σ √6 / π`, location `μ - γ β`. -/
noncomputable def gumbelProb {ι : Type} (N : Finset ι) (f : ι → ℝ) (x : ℝ) : ℝ :=
  Real.exp (-Real.exp (-(x - (meanOver N f - Real.eulerMascheroniConstant * (√(sampleVariance N f) * √6 / Real.pi)))
    / (√(sampleVariance N f) * √6 / Real.pi)))

/-- The objects of `T` other than `j` with a similarity to `j`; zeros are missing values. -/
noncomputable def present {n : ℕ} (T : Finset (Fin n)) (S : Fin n → Fin n → ℝ) (j : Fin n) : Finset (Fin n) :=
  T.filter (fun c => c ≠ j ∧ S c j ≠ 0)

/-- Number of values present in row `i`. -/
noncomputable def rowCount {n : ℕ} (S : Fin n → Fin n → ℝ) (i : Fin n) : ℕ :=
  (Finset.univ.filter (fun c => S i c ≠ 0)).card

end HubToolbox.Spec
