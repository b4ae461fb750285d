import Verif.LS.Spec
import Verif.SNN.Spec
import Mathlib.Algebra.BigOperators.Field
import Mathlib.Algebra.BigOperators.Ring.Finset
import Mathlib.Analysis.SpecialFunctions.Pow.Real

/-!
# Specification for centering and DisSim

Nothing here mentions the model of the code.
-/

set_option autoImplicit false

namespace HubToolbox.Spec

section
variable {K : Type} [Field K]

/-- Centroid of the vectors of `S`. -/
def centroid {ι φ : Type} (S : Finset ι) (X : ι → φ → K) (f : φ) : K := (∑ i ∈ S, X i f) / S.card

/-- Inner product. -/
def inner {φ : Type} [Fintype φ] (x y : φ → K) : K := ∑ f, x f * y f

/-- Squared euclidean distance. -/
def sq {φ : Type} [Fintype φ] (x y : φ → K) : K := ∑ f, (x f - y f) ^ 2

/-- DisSim: squared distance, reduced by the squared distances of both points to their centroids. -/
def disSim {φ : Type} [Fintype φ] (x y c c' : φ → K) : K := sq x y - sq x c - sq y c'
end

/-- Euclidean norm. -/
noncomputable def norm {φ : Type} [Fintype φ] (x : φ → ℝ) : ℝ := √(inner x x)

/-- Cosine similarity. -/
noncomputable def cosine {φ : Type} [Fintype φ] (x y : φ → ℝ) : ℝ := inner x y / (norm x * norm y)

end HubToolbox.Spec
