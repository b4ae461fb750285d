import Verif.Base
import Mathlib.Data.List.Count
import Mathlib.Data.List.Nodup
import Mathlib.Data.Fintype.Card
import Mathlib.Data.Int.Order.Basic

/-!
# Specification of k-nearest-neighbour classification
-/

set_option autoImplicit false

namespace HubToolbox.Spec

variable {α L K : Type} [DecidableEq L] [DecidableEq α]

/-- `c` is strictly the most frequent element of `labels`. -/
def StrictMode (labels : List L) (c : L) : Prop := ∀ c', c' ≠ c → labels.count c' < labels.count c

/-- `p` is the outcome of the vote of `labels` (nearest first): the strictly most frequent label, and the nearest
one's label if there is no such label. -/
def IsVote (labels : List L) (p : L) : Prop :=
  (∀ c, StrictMode labels c → p = c) ∧ ((∀ c, ¬ StrictMode labels c) → labels.head? = some p)

/-- `x` is at least as near as `y`. -/
def Nearer [LE K] (metric : String) (x y : XR K) : Prop := if metric = "distance" then x ≤ y else y ≤ x

/-- `N` are `k` nearest of the candidates with finite distance, all of them if there are less than `k`, nearest
first. -/
structure IsKNN [LE K] (metric : String) (row : α → XR K) (cand : Finset α) (k : ℕ) (N : List α) : Prop where
  nodup : N.Nodup
  mem : ∀ x ∈ N, x ∈ cand ∧ (row x).isFinite
  sorted : N.Pairwise (fun x y => Nearer metric (row x) (row y))
  nearest : ∀ x ∈ N, ∀ y ∈ cand, (row y).isFinite → y ∉ N → Nearer metric (row x) (row y)
  length : N.length = min k (cand.filter (fun x => (row x).isFinite)).card

/-- As `IsKNN`, but only the first element is known to be the nearest one. -/
structure IsKNNFirst [LE K] (metric : String) (row : α → XR K) (cand : Finset α) (k : ℕ) (N : List α) : Prop where
  nodup : N.Nodup
  mem : ∀ x ∈ N, x ∈ cand ∧ (row x).isFinite
  first : ∀ x, N.head? = some x → ∀ y ∈ N, Nearer metric (row x) (row y)
  nearest : ∀ x ∈ N, ∀ y ∈ cand, (row y).isFinite → y ∉ N → Nearer metric (row x) (row y)
  length : N.length = min k (cand.filter (fun x => (row x).isFinite)).card

/-- The number of different smaller labels. -/
def labelRank {ι : Type} [Fintype ι] (y : ι → ℤ) (v : ℤ) : ℕ := ((Finset.univ.image y).filter (· < v)).card

/-- The value which precedes all finite values in the neighbour order. -/
def tooNear (metric : String) : XR K := if metric = "distance" then .ninf else .pinf

end HubToolbox.Spec
