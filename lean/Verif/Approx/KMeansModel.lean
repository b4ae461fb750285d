import Verif.Approx.Model
import Verif.LS.Model
import Mathlib.Algebra.BigOperators.Fin

/-!
# Model of `hub_toolbox/approximate.py`, part 2: `kmeanspp`
-/

set_option autoImplicit false

namespace HubToolbox

namespace Np

/-- `np.cumsum`. -/
def cumsum {K : Type} [AddCommMonoid K] {n : ℕ} (w : Fin n → K) (j : Fin n) : K :=
  ∑ i ∈ Finset.univ.filter (fun i : Fin n => i ≤ j), w i

/-- `np.searchsorted(a, v, side='left')` of an ascending array: the number of smaller elements. -/
def searchLeft {K : Type} [LinearOrder K] {n : ℕ} (a : Fin n → K) (v : K) : ℕ :=
  (List.finRange n).countP (fun i => decide (a i < v))

/-- `np.searchsorted(a, v, side='right')` of an ascending array: the number of elements not greater. -/
def searchRight {K : Type} [LinearOrder K] {n : ℕ} (a : Fin n → K) (v : K) : ℕ :=
  (List.finRange n).countP (fun i => decide (a i ≤ v))

end Np

namespace Approx

variable {K : Type} [Field K] [LinearOrder K]

/-- The random numbers drawn by one call of `kmeanspp`: `randint` is the first centre, `sample c t` the `t`-th value of
`random_sample` drawn for centre `c`, which lies in the half open unit interval. -/
structure Rand (K : Type) [Field K] [LinearOrder K] where
  randint : ∀ {n : ℕ}, 0 < n → Fin n
  sample : ℕ → ℕ → K
  nonneg : ∀ c t, 0 ≤ sample c t
  lt_one : ∀ c t, sample c t < 1

/-- `candidate_ids` (`/repo/hub_toolbox/approximate.py` lines 302-304) for one random value, and the `IndexError` of
`X[candidate_ids]` (lines 307-318). -/
def candidate {n : ℕ} (closest : Fin n → K) (u : K) : Py (Fin n) :=
  let c := Np.searchLeft (Np.cumsum closest) (u * ∑ i, closest i)
  if h : c < n then .ok ⟨c, h⟩ else .error .indexError

/-- State of the search for the best local trial. -/
abbrev Best (K : Type) (n : ℕ) := Option (Fin n × K × (Fin n → K))

/-- One local trial (`/repo/hub_toolbox/approximate.py` lines 325-334). -/
def trial {n : ℕ} (d : Fin n → Fin n → K) (closest : Fin n → K) (best : Best K n) (cand : Fin n) : Best K n :=
  let new : Fin n → K := fun x => min (closest x) (d cand x)
  let pot := ∑ x, new x
  match best with
  | none => some (cand, pot, new)
  | some (b, bp, bd) => if pot < bp then some (cand, pot, new) else some (b, bp, bd)

/-- One pass of the main loop (`/repo/hub_toolbox/approximate.py` lines 299-344) for centre number `c`. Without any trial
`best_candidate` is `None` and storing it in the integer array `ind` raises `TypeError`. -/
def nextCentre {n : ℕ} (d : Fin n → Fin n → K) (r : Rand K) (trials c : ℕ) (closest : Fin n → K) :
    Py (Fin n × (Fin n → K)) := do
  let cands ← Np.tabulateM (fun t : Fin trials => candidate closest (r.sample c t))
  match (List.ofFn cands).foldl (trial d closest) none with
  | none => throw .typeError
  | some (b, _, bd) => pure (b, bd)

/-- The centres number `c`, `c + 1`, …. -/
def centresFrom {n : ℕ} (d : Fin n → Fin n → K) (r : Rand K) (trials : ℕ) :
    ℕ → ℕ → (Fin n → K) → Py (List (Fin n))
  | 0, _, _ => pure []
  | k + 1, c, closest => do
    let (b, closest) ← nextCentre d r trials c closest
    let rest ← centresFrom d r trials k (c + 1) closest
    pure (b :: rest)

/-- `kmeanspp` (`/repo/hub_toolbox/approximate.py` lines 224-349): the array `ind`; `centers` is `X[ind]`.
`d` are the distances `euclidean_distances(X, X, squared=True)` or `cosine_distances(X, X)`; `random_state` is python's
`None` or a generator; `trials` is `n_local_trials` (by default two plus the truncated logarithm of `n_clusters`).
Simplification: data and distances are finite. -/
def kmeanspp {n : ℕ} (d : Fin n → Fin n → K) (metric : String) (nClusters : ℕ) (random : Option (Rand K))
    (trials : ℕ) : Py (List (Fin n)) :=
  if metric ≠ "sqeuclidean" ∧ metric ≠ "cosine" ∧ metric ≠ "precomputed" then .error .valueError
  else match random with
    | none => .error .attributeError
    | some r =>
      if h : 0 < n then
        match nClusters with
        | 0 => .error .indexError
        | k + 1 => do
          let first := r.randint h
          let rest ← centresFrom d r trials k 1 (d first)
          pure (first :: rest)
      else .error .valueError

end Approx
end HubToolbox
