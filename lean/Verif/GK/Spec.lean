import Verif.Base
import Mathlib.Data.Fintype.Prod
import Mathlib.Data.Fintype.Card
import Mathlib.Algebra.Field.Basic

/-!
# Specification of the Goodman-Kruskal index
-/

set_option autoImplicit false

namespace HubToolbox.Spec

variable {n : ℕ} {L : Type} [DecidableEq L]

/-- Quadruples: an unordered pair of different points of the same class and an unordered pair of points of different
classes, related by `R`. -/
def quads (cls : Fin n → L) (R : Fin n × Fin n → Fin n × Fin n → Prop) [∀ p q, Decidable (R p q)] :
    Finset ((Fin n × Fin n) × (Fin n × Fin n)) :=
  Finset.univ.filter (fun x => x.1.1 < x.1.2 ∧ cls x.1.1 = cls x.1.2 ∧ x.2.1 < x.2.2 ∧
    cls x.2.1 ≠ cls x.2.2 ∧ R x.1 x.2)

/-- Goodman-Kruskal's gamma from the numbers of concordant and discordant quadruples. -/
def gkGamma {K : Type} [Field K] (c d : ℕ) : K :=
  if c + d = 0 then 0 else ((c : K) - d) / (c + d)

variable {K : Type} [Field K] [LinearOrder K]

/-- Goodman-Kruskal index: concordant quadruples have the same-class pair nearer together. -/
def gkIndex (metric : String) (D : Fin n → Fin n → XR K) (cls : Fin n → L) : K :=
  let less := (quads cls (fun p q => XR.flt (D p.1 p.2) (D q.1 q.2))).card
  let more := (quads cls (fun p q => XR.flt (D q.1 q.2) (D p.1 p.2))).card
  if metric = "distance" then gkGamma less more else gkGamma more less

/-- Goodman-Kruskal index counting only quadruples for which both similarities are nonzero. -/
def gkIndexNonzero (metric : String) (S : Fin n → Fin n → K) (cls : Fin n → L) : K :=
  let less := (quads cls (fun p q => S p.1 p.2 ≠ 0 ∧ S q.1 q.2 ≠ 0 ∧ S p.1 p.2 < S q.1 q.2)).card
  let more := (quads cls (fun p q => S p.1 p.2 ≠ 0 ∧ S q.1 q.2 ≠ 0 ∧ S q.1 q.2 < S p.1 p.2)).card
  if metric = "distance" then gkGamma less more else gkGamma more less

end HubToolbox.Spec
