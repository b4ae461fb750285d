import Verif.Base
import Mathlib.Data.Finset.Card
import Mathlib.Data.Fintype.Card
import Mathlib.Algebra.BigOperators.Group.Finset.Basic
import Mathlib.Analysis.SpecialFunctions.Exp
import Mathlib.Analysis.SpecialFunctions.Pow.Real

/-!
# Specification for Local Scaling and NICDM

Nothing here mentions the model of the code.
-/

set_option autoImplicit false

namespace HubToolbox.Spec

/-- `ρ` is the `k`-th smallest of the values `f j`, `j ∈ S` (counted with multiplicity). -/
structure IsKthSmallest {ι : Type} (S : Finset ι) (f : ι → ℝ) (k : ℕ) (ρ : ℝ) : Prop where
  attained : ∃ j ∈ S, f j = ρ
  below : (S.filter (fun j => f j < ρ)).card < k
  upto : k ≤ (S.filter (fun j => f j ≤ ρ)).card

/-- `ρ` is the `k`-th largest of the values `f j`, `j ∈ S`. -/
def IsKthLargest {ι : Type} (S : Finset ι) (f : ι → ℝ) (k : ℕ) (ρ : ℝ) : Prop :=
  IsKthSmallest S (fun j => - f j) k (-ρ)

/-- `N` are `k` elements of `S` with smallest values. -/
structure IsNearest {ι : Type} [DecidableEq ι] (S : Finset ι) (f : ι → ℝ) (k : ℕ) (N : Finset ι) : Prop where
  sub : N ⊆ S
  card : N.card = k
  best : ∀ a ∈ N, ∀ b ∈ S, b ∉ N → f a ≤ f b

/-- The local scaling formula. -/
noncomputable def localScaling (d ri rj : ℝ) : ℝ := 1 - Real.exp (-(d ^ 2 / (ri * rj)))

/-- Arithmetic mean of `f` over a non-empty finite set. -/
noncomputable def meanOver {ι : Type} (N : Finset ι) (f : ι → ℝ) : ℝ := (∑ j ∈ N, f j) / N.card

/-- Geometric mean of `n` positive numbers. -/
noncomputable def geometricMean {n : ℕ} (r : Fin n → ℝ) : ℝ := (∏ i, r i) ^ ((1 : ℝ) / n)

/-- The NICDM formula with geometric mean `g` of all mean neighbour distances. -/
noncomputable def nicdm (g d ri rj : ℝ) : ℝ := g * d / √(ri * rj)

/-- The points which may serve as neighbours: not held out. -/
def training (n : ℕ) (test : Option (List ℤ)) : Finset (Fin n) :=
  Finset.univ.filter (fun j => ∀ t, test = some t → (j.val : ℤ) ∉ t)

end HubToolbox.Spec
