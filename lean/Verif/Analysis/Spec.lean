import Verif.Hubness.Spec

/-!
# Specification of the numbers of a hubness experiment

Nothing here mentions the model of the code.
-/

set_option autoImplicit false

namespace HubToolbox.Spec

/-- In how many of the lists `j` occurs. -/
def hits {n : ℕ} (L : Fin n → List (Fin n)) (j : Fin n) : ℕ := (Finset.univ.filter (fun i => j ∈ L i)).card

/-- `L` are nearest neighbour lists of all points, of length `k` or of all other points if there are fewer. -/
def AreLists {n : ℕ} (metric : String) (M : Fin n → Fin n → XR ℝ) (k : ℤ) (L : Fin n → List (Fin n)) : Prop :=
  ∀ i, IsKnn (closer metric) (effective metric M i) (min k ((n : ℤ) - 1)).toNat (L i)

/-- Percentage of points which occur in no list. -/
noncomputable def antiHubs {n : ℕ} (L : Fin n → List (Fin n)) : ℝ :=
  100 * ((Finset.univ.filter (fun j => ∀ i, j ∉ L i)).card : ℝ) / n

/-- Percentage of lists which contain the most frequent point. -/
noncomputable def maxHub {n : ℕ} (L : Fin n → List (Fin n)) : ℝ :=
  100 * ((Finset.univ.sup (hits L) : ℕ) : ℝ) / n

/-- Skewness of the numbers of occurrences, around their mean. -/
noncomputable def hubness {n : ℕ} (L : Fin n → List (Fin n)) : ℝ :=
  skewness (fun j => (hits L j : ℝ)) ((∑ j, (hits L j : ℝ)) / n)

end HubToolbox.Spec
