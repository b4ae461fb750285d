import Verif.Base
import Mathlib.Analysis.SpecialFunctions.Pow.Real
import Mathlib.Data.Fintype.Card
import Mathlib.Data.List.FinRange

/-!
# Specification of k-nearest-neighbour lists and k-occurrence

Nothing here mentions the model of the code.
-/

set_option autoImplicit false

namespace HubToolbox.Spec

variable {α : Type*} {m : ℕ}

/-- `L` lists `k` different columns, nearest first, and no unlisted column is strictly nearer than a listed
one. `closer a b` reads "a is at least as near as b". -/
structure IsKnn (closer : α → α → Prop) (d : Fin m → α) (k : ℕ) (L : List (Fin m)) : Prop where
  length : L.length = k
  distinct : L.Nodup
  sorted : L.Pairwise (fun a b => closer (d a) (d b))
  best : ∀ a ∈ L, ∀ b, b ∉ L → closer (d a) (d b)

/-- Smaller distances and larger similarities are nearer. -/
def closer [LE α] (metric : String) (a b : α) : Prop :=
  if metric = "distance" then a ≤ b else b ≤ a

/-- The infinitely far value. -/
def far {K : Type*} (metric : String) : XR K := if metric = "distance" then .pinf else .ninf

/-- How far column `j` counts as seen from row `i`: self entries of a square matrix, non-finite entries and
zero distances of a rectangular distance matrix are infinitely far. -/
def effective {K : Type*} [DecidableEq K] [Zero K] {n m : ℕ} (metric : String)
    (D : Fin n → Fin m → XR K) (i : Fin n) (j : Fin m) : XR K :=
  if (n = m ∧ i.val = j.val) ∨ (D i j).isFinite = false ∨
      (n ≠ m ∧ metric = "distance" ∧ D i j = .fin 0) then far metric
  else D i j

/-- Number of rows in whose list `j` occurs. -/
def occurrences {n : ℕ} (lists : Fin n → List ℕ) (j : ℕ) : ℕ :=
  (Finset.univ.filter (fun i => j ∈ lists i)).card

/-- Population skewness `E[(X-μ)³] / σ³` of `m` values, `σ` being the standard deviation; 0 for constant data. -/
noncomputable def skewness {m : ℕ} (x : Fin m → ℝ) (μ : ℝ) : ℝ :=
  if √((∑ j, (x j - μ) ^ 2) / m) = 0 then 0
  else ((∑ j, (x j - μ) ^ 3) / m) / √((∑ j, (x j - μ) ^ 2) / m) ^ 3

end HubToolbox.Spec
