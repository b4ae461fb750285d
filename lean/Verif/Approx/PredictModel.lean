import Verif.Approx.Model
import Verif.NpSort
import Verif.Approx.MPModel

/-!
# Model of `hub_toolbox/approximate.py`, part 6: constructor, dispatch, sparse result and prediction

`KNeighborsClassifier` of scikit-learn is modelled by its documented behaviour: the labels of the `k` nearest training
objects vote, all with the same weight or each with the reciprocal of its distance; of several labels with the largest
weight the smallest wins.
-/

set_option autoImplicit false

namespace HubToolbox.Approx

variable {K : Type} [Field K] [LinearOrder K]

/-! ### Constructor and dispatch -/

/-- The attributes of an instance which the constructor checks. -/
structure Params where
  hr : Option String
  nNeighbors : Option ℤ
  nSamples : Option ℤ
  sampling : Option String
  metric : String
  predictor : String
  nJobs : ℤ
  verbose : ℤ
  deriving DecidableEq

/-- Lines 447-457 of `/repo/hub_toolbox/approximate.py`. -/
def checkHr : Option String → Py (Option String)
  | none => .ok none
  | some s =>
    let s := s.toUpper
    if s = "NONE" then .ok none
    else if s ∈ ["MP", "MPG", "LS", "NICDM", "DSL"] then .ok (some s) else .error .valueError

/-- Lines 467-484 of `/repo/hub_toolbox/approximate.py`; `falconn` and `nms` tell which libraries are installed. -/
def checkSampling (falconn nms : Bool) : Option String → Py (Option String)
  | none => .ok none
  | some s =>
    let s := s.toLower
    if s = "none" then .ok none
    else if s ∉ ["random", "kmeans++", "lsh", "hnsw"] then .error .valueError
    else if s = "lsh" ∧ falconn = false then .error .importError
    else if s = "hnsw" ∧ nms = false then .error .importError
    else .ok (some s)

/-- `if n is not None: if n < 1: raise ValueError` (`/repo/hub_toolbox/approximate.py` lines 458-466). -/
def checkSize : Option ℤ → Py Unit
  | none => .ok ()
  | some n => if n < 1 then .error .valueError else .ok ()

/-- `SuQHR.__init__` (`/repo/hub_toolbox/approximate.py` lines 429-493). Parameters which are not checked (`random_state`
and further keywords) are left out. -/
def construct (falconn nms : Bool) (cpuCount : ℤ) (p : Params) : Py Params := do
  let hr ← checkHr p.hr
  checkSize p.nNeighbors
  checkSize p.nSamples
  let sampling ← checkSampling falconn nms p.sampling
  if p.metric ∉ ["sqeuclidean", "cosine", "precomputed"] then throw .valueError
  if p.predictor ∉ ["knn"] then throw .valueError
  let nJobs ← if p.nJobs = -1 then pure cpuCount
    else if p.nJobs < -1 ∨ p.nJobs = 0 then throw .valueError
    else pure p.nJobs
  if p.verbose < 0 then throw .valueError
  pure { p with hr := hr, sampling := sampling, nJobs := nJobs }

/-- Which algorithm `fit` (lines 1417-1432 of `/repo/hub_toolbox/approximate.py`) and `transform` (lines 1464-1484) choose. -/
inductive Branch where
  | withoutHr | mp | mpg | ls | dsl
  deriving DecidableEq

/-- The choice by `hr_algorithm` (`/repo/hub_toolbox/approximate.py` lines 1417-1432). -/
def branch (hr : Option String) : Py Branch :=
  match hr with
  | none => .ok .withoutHr
  | some s =>
    let s := s.toUpper
    if s = "MP" then .ok .mp
    else if s = "MPG" then .ok .mpg
    else if s ∈ ["LS", "NICDM"] then .ok .ls
    else if s = "DSL" then .ok .dsl
    else .error .valueError

/-- Whether the same training objects are used for all test objects (`/repo/hub_toolbox/approximate.py` lines 795, 807,
817-820 and the same tests in the other methods for fitting). -/
def isFixed : Option String → Py Bool
  | none => .ok true
  | some s =>
    if s ∈ ["random", "kmeans++"] then .ok true
    else if s ∈ ["hnsw", "lsh"] then .ok false
    else .error .notImplementedError

/-- The checks of `sampling_algorithm` and `metric` in the methods for fitting (`/repo/hub_toolbox/approximate.py` lines
795-822, 870-894, 1018-1055, 1114-1143, 1226-1276): what is raised before any result is available. With `LS` and `NICDM`
and an unknown metric the variable `D_train` is used before it is assigned. -/
def fitChecks (p : Params) : Py Branch := do
  let b ← branch p.hr
  let fixed ← isFixed p.sampling
  let known := p.metric = "sqeuclidean" ∨ p.metric = "cosine"
  match b with
  | .withoutHr => .ok b
  | .mp => .ok b
  | .mpg => if fixed = true ∧ ¬ known then .error .valueError else .ok b
  | .ls => if fixed = true ∧ ¬ known then .error .unboundLocalError else .ok b
  | .dsl => if ¬ known then .error .valueError else .ok b

/-! ### Sparse result -/

/-- `_sparse_distance_matrix` (`/repo/hub_toolbox/approximate.py` lines 522-539) with sampling: the entry `(i, x)` of
`coo_matrix((data, (i, j))).tocsr()`, which adds up all values given for the same cell; `none` if no value was given. -/
def sparseEntry {n t k : ℕ} (ind : Fin t → Fin k → Fin n) (d : Fin t → Fin k → K) (i : Fin t) (x : Fin n) : Option K :=
  match (List.finRange k).filter (fun c => decide (ind i c = x)) with
  | [] => none
  | cs => some (cs.map (d i)).sum

/-! ### Prediction -/

/-- The values of `knn__weights` considered here. -/
inductive Weights where
  | uniform | distance
  deriving DecidableEq

/-- Weights of neighbours at distances `d`: if some distance is zero, only such neighbours have a vote. -/
def voteWeights (w : Weights) (d : List K) : List K :=
  match w with
  | .uniform => d.map (fun _ => 1)
  | .distance => if 0 ∈ d then d.map (fun x => if x = 0 then 1 else 0) else d.map (fun x => 1 / x)

/-- Total weight of the votes for label `c`. -/
def support (votes : List (ℤ × K)) (c : ℤ) : K :=
  ((votes.filter (fun v => decide (v.1 = c))).map Prod.snd).sum

/-- `weighted_mode` of scikit-learn: the labels in ascending order, each replaces the winner so far if it has more weight. -/
def winner (votes : List (ℤ × K)) : Option ℤ :=
  match Np.unique (votes.map Prod.fst) with
  | [] => none
  | c :: cs => some (cs.foldl (fun best c => if support votes best < support votes c then c else best) c)

/-- One row of `KNeighborsClassifier(n_neighbors=k, metric='precomputed', weights=w).fit(…, label).predict(…)`: infinite
values and `nan` are rejected. -/
def knnPredict {m : ℕ} (o : ArgPart (XR K)) (w : Weights) (k : ℕ) (label : Fin m → ℤ) (d : Fin m → XR K) : Py ℤ :=
  if h : 0 < k ∧ k ≤ m then
    if ∀ j, (d j).isFinite = true then
      let perm := o.run d (fun _ : Fin 1 => ⟨k - 1, by omega⟩)
      let near := (List.finRange k).map (fun c => perm ⟨c.val, by omega⟩)
      let dist := near.map (fun j => match d j with | .fin x => x | _ => 0)
      match winner ((near.map label).zip (voteWeights w dist)) with
      | some c => .ok c
      | none => .error .valueError
    else .error .valueError
  else .error .valueError

/-- `predict` after `transform` with the same training objects for all test objects (`/repo/hub_toolbox/approximate.py`
lines 1512-1526 and 1356-1371): `kwargs` is `knn__n_neighbors` if given. -/
def predictFixed {t m : ℕ} (o : ArgPart (XR K)) (w : Weights) (kwargs : Option ℕ) (label : Fin m → ℤ)
    (D : Fin t → Fin m → XR K) : Py (Fin t → ℤ) := do
  let D ← enforceFinite D
  Np.tabulateM (fun i => knnPredict o w (kwargs.getD 5) label (D i))

/-- `predict` after `transform` with `'hnsw'` or `'lsh'` (`/repo/hub_toolbox/approximate.py` lines 1512-1526 and 1372-1387):
a new classifier for each test object, with the neighbours found for it. -/
def predictVaried {t m n : ℕ} (o : ArgPart (XR K)) (w : Weights) (_kwargs : Option ℕ) (nNeighbors : ℕ) (label : Fin n → ℤ)
    (ind : Fin t → Fin m → Fin n) (D : Fin t → Fin m → XR K) : Py (Fin t → ℤ) := do
  let D ← enforceFinite D
  Np.tabulateM (fun i => knnPredict o w nNeighbors (fun j => label (ind i j)) (D i))

end HubToolbox.Approx
