import Verif.Base
import Mathlib.Data.Fintype.Card
import Mathlib.Algebra.Field.Basic

/-!
# Specification of empirical Mutual Proximity

Schnitzer et al. 2012: the probability, over the other points `x`, that `x` is farther away from both `i` and
`j` than they are from each other.
-/

set_option autoImplicit false

namespace HubToolbox.Spec

variable {K : Type} [Field K] [LinearOrder K] {n : ℕ}

/-- Points other than `i`, `j` which are farther from both than `D i j`. -/
def farther (D : Fin n → Fin n → XR K) (i j : Fin n) : Finset (Fin n) :=
  Finset.univ.filter (fun x => x ≠ i ∧ x ≠ j ∧ XR.flt (D i j) (D i x) ∧ XR.flt (D i j) (D j x))

/-- Points other than `i`, `j` which are at most as similar to both as `i` and `j` are. -/
def lessSimilar (D : Fin n → Fin n → XR K) (i j : Fin n) : Finset (Fin n) :=
  Finset.univ.filter (fun x => x ≠ i ∧ x ≠ j ∧ XR.fle (D i x) (D i j) ∧ XR.fle (D j x) (D i j))

/-- Sample columns other than those of `i` and of column `j` which are farther from both points. -/
def fartherS {s : ℕ} (D : Fin n → Fin s → XR K) (idx : Fin s → Fin n) (i : Fin n) (j : Fin s) :
    Finset (Fin s) :=
  Finset.univ.filter (fun x => idx x ≠ i ∧ idx x ≠ idx j ∧ XR.flt (D i j) (D i x) ∧
    XR.flt (D i j) (D (idx j) x))

/-- Sample columns other than those of `i` and of column `j` which are at most as similar to both. -/
def lessSimilarS {s : ℕ} (D : Fin n → Fin s → XR K) (idx : Fin s → Fin n) (i : Fin n) (j : Fin s) :
    Finset (Fin s) :=
  Finset.univ.filter (fun x => idx x ≠ i ∧ idx x ≠ idx j ∧ XR.fle (D i x) (D i j) ∧
    XR.fle (D (idx j) x) (D i j))

/-- Mutual Proximity of a symmetric distance matrix. -/
def mpDistance (D : Fin n → Fin n → XR K) (i j : Fin n) : K :=
  if i = j then 0 else 1 - ((farther D i j).card : K) / n

/-- Mutual Proximity of a symmetric similarity matrix. -/
def mpSimilarity (D : Fin n → Fin n → XR K) (i j : Fin n) : K :=
  if i = j then 1 else ((lessSimilar D i j).card : K) / n

def Symmetric {α : Type*} (D : Fin n → Fin n → α) : Prop := ∀ i j, D i j = D j i

end HubToolbox.Spec
