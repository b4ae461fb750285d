import Verif.Base
import Mathlib.Data.Finset.Lattice.Fold
import Mathlib.Algebra.BigOperators.Fin
import Mathlib.Algebra.Field.Basic

/-!
# Specification for the approximate methods

Nothing here mentions the model of the code.
-/

set_option autoImplicit false

namespace HubToolbox.Spec

variable {K : Type} [Field K] [LinearOrder K] {n : ℕ}

/-- Distance of `x` to the nearest point of `S`. -/
def toNearest (d : Fin n → Fin n → K) (S : Finset (Fin n)) (hS : S.Nonempty) (x : Fin n) : K :=
  S.inf' hS (fun c => d c x)

/-- The k-means potential of the centres `S`. -/
def potential (d : Fin n → Fin n → K) (S : Finset (Fin n)) (hS : S.Nonempty) : K :=
  ∑ x, toNearest d S hS x

/-- `j` is drawn by inversion from the weights `w` with the uniform random number `u`. -/
def DrawnBy (w : Fin n → K) (u : K) (j : Fin n) : Prop :=
  (∀ i < j, ∑ x ∈ Finset.univ.filter (fun x => x ≤ i), w x < u * ∑ x, w x) ∧
    u * ∑ x, w x ≤ ∑ x ∈ Finset.univ.filter (fun x => x ≤ j), w x

/-- Mutual Proximity of a query at distances `dq` from the points and point `j`, where `d` are the distances between
points: one minus the fraction of points farther away from both. -/
def empiricMP (dq : Fin n → K) (d : Fin n → Fin n → K) (j : Fin n) : K :=
  1 - ((Finset.univ.filter (fun x => dq j < dq x ∧ dq j < d j x)).card : K) / n

/-- `a` is a correct answer to the query for the `k` nearest of `n` points at distances `dq`. -/
structure ExactAnswer (dq : Fin n → K) (k : ℕ) (a : List (Fin n × K)) : Prop where
  length : a.length = min k n
  nodup : (a.map Prod.fst).Nodup
  value : ∀ p ∈ a, p.2 = dq p.1
  sorted : a.Pairwise (fun p q => p.2 ≤ q.2)
  best : ∀ p ∈ a, ∀ x, x ∉ a.map Prod.fst → p.2 ≤ dq x

end HubToolbox.Spec
