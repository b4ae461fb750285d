import Verif.Base
import Mathlib.Data.Finset.Card
import Mathlib.Data.Fintype.Card
import Mathlib.Algebra.Field.Basic
import Mathlib.Algebra.BigOperators.Group.Finset.Basic
import Mathlib.Analysis.SpecialFunctions.Log.Basic

/-!
# Specification for shared nearest neighbours and simhub

Nothing here mentions the model of the code.
-/

set_option autoImplicit false

namespace HubToolbox.Spec

/-- `N` are `k` members of `S`, and no other member of `S` is strictly nearer than one of them. `nearer a b` reads
"`a` is at least as near as `b`". -/
structure IsHood {ι α : Type} [DecidableEq ι] (nearer : α → α → Prop) (S : Finset ι) (d : ι → α) (k : ℕ)
    (N : Finset ι) : Prop where
  sub : N ⊆ S
  card : N.card = k
  best : ∀ a ∈ N, ∀ b ∈ S, b ∉ N → nearer (d a) (d b)

/-- Small distances and large similarities are near. -/
def nearer {α : Type} [LE α] (metric : String) (a b : α) : Prop :=
  if metric = "similarity" then b ≤ a else a ≤ b

/-- Fraction of common neighbours of two neighbourhoods of size `k`. -/
def commonFraction {ι K : Type} [DecidableEq ι] [Field K] (N N' : Finset ι) (k : ℕ) : K := ((N ∩ N').card : K) / k

/-- Shared nearest neighbour similarity or distance of different points. -/
def snn {ι K : Type} [DecidableEq ι] [Field K] (metric : String) (N N' : Finset ι) (k : ℕ) : K :=
  if metric = "similarity" then commonFraction N N' k else 1 - commonFraction N N' k

/-- The value of a point compared with itself. -/
def snnSelf {K : Type} [Field K] (metric : String) : K := if metric = "similarity" then 1 else 0

/-- Number of points with `x` in their neighbourhood, each point being a neighbour of itself. -/
def occurrence {ι κ : Type} [DecidableEq ι] (P : Finset κ) (N : κ → Finset ι) (x : ι) : ℕ :=
  (P.filter (fun i => x ∈ N i)).card + 1

/-- `simhub` similarity with occurrence informativeness `log (m / N(x))` of the common neighbours and an additional
weight per neighbour, normalised by `s * log m * wmax`. -/
noncomputable def simhub {ι : Type} [DecidableEq ι] (m s : ℕ) (occ : ι → ℕ) (weight : ι → ℝ) (wmax : ℝ)
    (N N' : Finset ι) : ℝ :=
  (∑ x ∈ N ∩ N', Real.log ((m : ℝ) / occ x) * weight x) / (s * Real.log m * wmax)

/-- The similarity itself, or one minus it. -/
def orDistance (returnDist : Bool) (v : ℝ) : ℝ := if returnDist then 1 - v else v

/-- Smoothed number of points of class `c` with `x` in their neighbourhood. -/
def classOccurrence {ι κ : Type} [DecidableEq ι] (P : Finset κ) (N : κ → Finset ι) (y : κ → ℤ) (c : ℤ) (x : ι) : ℕ :=
  (P.filter (fun i => x ∈ N i ∧ y i = c)).card + 1

/-- Information gain `log |C| - H` of a neighbour, `H` being the (not normalised) entropy of its smoothed class
occurrences. -/
noncomputable def informationGain (C : Finset ℤ) (occ : ℕ) (classOcc : ℤ → ℕ) : ℝ :=
  Real.log C.card - ∑ c ∈ C, -((classOcc c : ℝ) / occ * Real.log ((classOcc c : ℝ) / occ))

end HubToolbox.Spec
