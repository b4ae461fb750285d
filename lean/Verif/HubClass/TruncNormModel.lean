import Verif.Base
import Mathlib.Probability.Distributions.Gaussian.Real
import Mathlib.Probability.ConditionalProbability

/-!
# Model of `Hubness._skewness_truncnorm`

`/repo/hub_toolbox/hubness.py` lines 611-622. Numbers are exact.
-/

set_option autoImplicit false

namespace HubToolbox.HubClass

open MeasureTheory ProbabilityTheory

/-- `stats.truncnorm(a, b).moment(n)` for real `a < b`: the `n`-th moment about zero of the standard normal distribution
restricted to the interval from `a` to `b` (`/repo/hub_toolbox/hubness.py` line 621). -/
noncomputable def truncnormMoment (a b : ℝ) (n : ℕ) : ℝ :=
  ∫ x, x ^ n ∂((gaussianReal 0 1)[|Set.Icc a b])

/-- `Nk.mean()` (`/repo/hub_toolbox/hubness.py` line 617). -/
noncomputable def meanOf (Nk : List ℕ) : ℝ := (Nk.map (fun x : ℕ => (x : ℝ))).sum / Nk.length

/-- `Nk.std(ddof=1)` (`/repo/hub_toolbox/hubness.py` line 618) of at least two numbers. -/
noncomputable def std1 (Nk : List ℕ) : ℝ :=
  √((Nk.map (fun x : ℕ => ((x : ℝ) - meanOf Nk) ^ 2)).sum / (Nk.length - 1))

/-- `np.iinfo(np.int64).max` (`/repo/hub_toolbox/hubness.py` line 616). -/
def clipRight : ℕ := 2 ^ 63 - 1

/-- `_skewness_truncnorm` (`/repo/hub_toolbox/hubness.py` lines 611-622). With fewer than two numbers the standard deviation is `nan`
(division by zero degrees of freedom, empty mean). If all numbers are equal, the bounds are divided by zero: `a` is `nan` for
zeros and `-inf` for positive numbers, `b` is `inf`, and the distribution is not truncated at all. -/
noncomputable def skewnessTruncnorm (Nk : List ℕ) : XR ℝ :=
  if Nk.length ≤ 1 then .nan
  else if std1 Nk = 0 then
    if meanOf Nk = 0 then .nan else .fin (∫ x, x ^ 3 ∂(gaussianReal 0 1))
  else .fin (truncnormMoment ((0 - meanOf Nk) / std1 Nk) ((clipRight - meanOf Nk) / std1 Nk) 3)

end HubToolbox.HubClass
