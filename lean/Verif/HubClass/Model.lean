import Verif.Hubness.Model
import Verif.HubClass.TruncNormModel
import Verif.Tac

/-!
# Model of class `Hubness` and of `hubness_from_vectors`

`/repo/hub_toolbox/hubness.py` lines 29-60 and 304-734.

Simplifications:
* numbers are exact; `pairwise_distances(…, 'euclidean', squared=True, …)` is the exact squared Euclidean
  distance, whatever norms are passed along as a speed-up (`X_norm_squared`, `Y_norm_squared`);
* the truncated normal distribution of scipy is the mathematical one (`TruncNormModel.lean`);
* messages and `verbose` output are not modelled; numpy is a version that still has `np.int`;
* divisions by the number of test objects are those of a field, so the statistics of an empty test set
  (`nan` in numpy) are not meaningful; the theorems assume at least one test object.
-/

set_option autoImplicit false

namespace HubToolbox.HubClass

open Hubness (Rnd skew)

/-- What `__init__` looks at in the arguments. A flag is represented by the answer of
`isinstance(flag, bool)` and its truth value. `k = none` is python's `None`. -/
structure Args (F : Type) where
  k : Option ℤ
  hubSize : F
  metric : String
  returnKNeighbors : Bool × Bool
  returnKOccurrence : Bool × Bool
  verbose : ℤ
  nJobs : ℤ

/-- A constructed estimator. -/
structure Params (F : Type) where
  k : Option ℤ
  hubSize : F
  metric : String
  nJobs : ℤ

/-- `VALID_METRICS` (`/repo/hub_toolbox/hubness.py` line 28). -/
def validMetrics : List String := ["euclidean", "cosine", "precomputed"]

/-- `Hubness.__init__` (`/repo/hub_toolbox/hubness.py` lines 444-482); `cpu` is the value of `cpu_count()`. -/
def init {F : Type} [LinearOrder F] [Zero F] (cpu : ℕ) (a : Args F) : Py (Params F) := do
  match a.k with
  | some k => if k < 1 then throw .valueError
  | none => pure ()
  if a.hubSize ≤ 0 then throw .valueError
  if a.metric ∉ validMetrics then throw .valueError
  if !a.returnKNeighbors.1 then throw .valueError
  if !a.returnKOccurrence.1 then throw .valueError
  let nJobs ←
    if a.nJobs = -1 then pure (cpu : ℤ)
    else if a.nJobs < -1 ∨ a.nJobs = 0 then throw .valueError
    else pure a.nJobs
  if a.verbose < 0 then throw .valueError
  pure { k := a.k, hubSize := a.hubSize, metric := a.metric, nJobs := nJobs }

section Neighbors
variable {K : Type}

/-- `/repo/hub_toolbox/hubness.py` lines 540-549 (precomputed) and 508-509 (vectors): partial sort of one row at the positions
`0 … start+k-1` and `[start:start+k]`; with `shuffle`, the row is permuted first. -/
def rowNN [LinearOrder K] (o : ArgPart (XR K)) {m : ℕ} (shuffle : Bool) (rp : Equiv.Perm (Fin m))
    (start k : ℕ) (d : Fin m → XR K) : Py (Fin k → Fin m) :=
  if shuffle then do
    let (p, pos) ← Np.argpartition o (fun c => d (rp c)) (Np.arange 0 (start + k))
    pure (fun c => rp (p (pos (Fin.natAdd start c))))
  else do
    let (p, pos) ← Np.argpartition o d (Np.arange 0 (start + k))
    pure (fun c => p (pos (Fin.natAdd start c)))

/-- `Hubness._k_neighbors_precomputed` (`/repo/hub_toolbox/hubness.py` lines 530-551). -/
def precomputed [LinearOrder K] (o : ArgPart (XR K)) (rnd : Rnd) (shuffle : Bool) {n m : ℕ}
    (start k : ℕ) (D : Fin n → Fin m → XR K) : Py (Fin n → Fin k → ℕ) :=
  (List.finRange n).foldlM (fun (Dk : Fin n → Fin k → ℕ) (i : Fin n) => do
    let row ← rowNN o shuffle (rnd i m) start k (Np.replaceNonFinite (D i) .pinf)
    pure (Function.update Dk i (fun c => (row c).val))) (fun _ _ => 0)

/-- One row of `Hubness._k_neighbors_precomputed_sparse` (`/repo/hub_toolbox/hubness.py` lines 590-606): `cols`/`data` are the stored
entries of the row. The vectorised branch (lines 577-583, all rows equally long and no shuffling) does
the same to each row, since `np.argpartition(…, axis=1)` treats rows separately. -/
def sparseRow [LinearOrder K] (o : ArgPart (XR K)) (rnd : Rnd) (shuffle : Bool) {m : ℕ} (i k : ℕ)
    (row : List (Fin m × XR K)) : Py (List ℕ) := do
  let r ← rowNN o shuffle (rnd i row.length) 0 k (fun p : Fin row.length => (row.get p).2)
  pure (List.ofFn (fun c => (row.get (r c)).1.val))

/-- `Hubness._k_neighbors_precomputed_sparse` (`/repo/hub_toolbox/hubness.py` lines 553-609): the flat concatenation of the row lists.
An empty matrix has no first row to read `n_samples` from (line 573). -/
def precomputedSparse [LinearOrder K] (o : ArgPart (XR K)) (rnd : Rnd) (shuffle : Bool) {n m : ℕ}
    (k : ℕ) (X : Fin n → List (Fin m × XR K)) : Py (List ℕ) :=
  if n = 0 then .error .indexError
  else (List.finRange n).foldlM (fun (acc : List ℕ) (i : Fin n) => do
    let row ← sparseRow o rnd shuffle i k (X i)
    pure (acc ++ row)) []

/-- Rows of the slice `[i*batch_size:(i+1)*batch_size]`. -/
def batchRows (n bs i : ℕ) : List (Fin n) :=
  (List.finRange n).filter (fun r => i * bs ≤ r.val ∧ r.val < (i + 1) * bs)

/-- `np.ceil(n_test / batch_size)` (`/repo/hub_toolbox/hubness.py` line 492). -/
def nBatches (n bs : ℕ) : ℕ := (n + bs - 1) / bs

/-- Rows computed by one batch: `/repo/hub_toolbox/hubness.py` lines 500-509 and lines 52-57. `d` is the matrix
`pairwise_distances(X[...], Y, …)` restricted to the batch; both `np.argpartition` and the slicing act
on each row separately. -/
def batch [LinearOrder K] (o : ArgPart (XR K)) {n m : ℕ} (start k bs i : ℕ)
    (d : Fin n → Fin m → XR K) : Py (List (Fin n × (Fin k → ℕ))) :=
  (batchRows n bs i).mapM (fun r => do
    let row ← rowNN o false 1 start k (d r)
    pure (r, fun c => (row c).val))

/-- Serial branch of `Hubness._k_neighbors` (`/repo/hub_toolbox/hubness.py` lines 493-510): batch after batch is written to `Dk`. -/
def serialNN [LinearOrder K] (o : ArgPart (XR K)) {n m : ℕ} (start k bs : ℕ)
    (d : Fin n → Fin m → XR K) : Py (Fin n → Fin k → ℕ) :=
  (List.range (nBatches n bs)).foldlM (fun (Dk : Fin n → Fin k → ℕ) (i : ℕ) => do
    let rows ← batch o start k bs i d
    pure (rows.foldl (fun (Dk : Fin n → Fin k → ℕ) (w : Fin n × (Fin k → ℕ)) =>
      Function.update Dk w.1 w.2) Dk)) (fun _ _ => 0)

/-- Worker pool branch (`/repo/hub_toolbox/hubness.py` lines 511-532, 44-58): each batch is one task; the tasks write their rows cell by cell to
shared memory. `sched` chooses any order of all the cell writes. -/
def parallelNN [LinearOrder K] (o : ArgPart (XR K)) {n m : ℕ} (start k bs : ℕ)
    (sched : List ((Fin n × Fin k) × ℕ) → List ((Fin n × Fin k) × ℕ))
    (d : Fin n → Fin m → XR K) : Py (Fin n → Fin k → ℕ) := do
  let tasks ← (List.range (nBatches n bs)).mapM (fun i => batch o start k bs i d)
  let writes := tasks.flatten.flatMap (fun w => (List.finRange k).map (fun c => ((w.1, c), w.2 c)))
  let mem := Sched.exec (fun _ => 0) (sched writes)
  pure (fun i c => mem (i, c))

/-- Squared Euclidean distances between all rows of `X` and all rows of `Y`. -/
def sqDist [Field K] {n m p : ℕ} (X : Fin n → Fin p → K) (Y : Fin m → Fin p → K) :
    Fin n → Fin m → XR K :=
  fun i j => .fin (∑ f, (X i f - Y j f) ^ 2)

/-- `Hubness._k_neighbors` (`/repo/hub_toolbox/hubness.py` lines 484-532). `batch_size=0` divides by zero: numpy yields `inf`, whose
conversion to int is no usable number of batches, modelled as an error. The keyword arguments `squared`,
`X_norm_squared` and `Y_norm_squared` are passed on to the metric by `pairwise_distances`;
`cosine_distances` does not have them (`TypeError`). -/
def kNeighbors [Field K] [LinearOrder K] (o : ArgPart (XR K)) {n m p : ℕ} (metric : String) (nJobs : ℤ)
    (start k bs : ℕ) (sched : List ((Fin n × Fin k) × ℕ) → List ((Fin n × Fin k) × ℕ))
    (X : Fin n → Fin p → K) (Y : Fin m → Fin p → K) : Py (Fin n → Fin k → ℕ) :=
  if bs = 0 then .error .overflowError
  else if metric = "cosine" ∧ 0 < nBatches n bs then .error .typeError
  else if nJobs = 1 then serialNN o start k bs (sqDist X Y)
  else parallelNN o start k bs sched (sqDist X Y)

end Neighbors

section Statistics
variable {F : Type} [Field F] [LinearOrder F]

/-- `_gini_index` with `limiting` one of `memory`, `space` (`/repo/hub_toolbox/hubness.py` lines 627-631): a running sum over `i` of
`np.sum(np.abs(Nk[:] - Nk[i]))`. -/
def giniMemory (Nk : List ℕ) : F :=
  let num : F := (List.range Nk.length).foldl (fun (acc : F) (i : ℕ) =>
    acc + (Nk.map (fun (x : ℕ) => |(x : F) - (Nk.getD i 0 : F)|)).sum) 0
  num / (2 * Nk.length * ((Nk.sum : ℕ) : F))

/-- `_gini_index` with `limiting` one of `time`, `cpu` (`/repo/hub_toolbox/hubness.py` lines 632-633): the sum of the matrix
`abs(Nk.reshape(1,-1) - Nk.reshape(-1,1))`. -/
def giniTime (Nk : List ℕ) : F :=
  let num : F := ((Nk.flatMap (fun (y : ℕ) => Nk.map (fun (x : ℕ) => |(x : F) - (y : F)|)))).sum
  num / (2 * Nk.length * ((Nk.sum : ℕ) : F))

/-- `_gini_index`, naive branch (`/repo/hub_toolbox/hubness.py` lines 634-639). -/
def giniNaive (Nk : List ℕ) : F :=
  let num : F := (List.range Nk.length).foldl (fun (acc : F) (i : ℕ) =>
    (List.range Nk.length).foldl (fun (acc : F) (j : ℕ) =>
      acc + |(Nk.getD i 0 : F) - (Nk.getD j 0 : F)|) acc) 0
  num / (2 * Nk.length * ((Nk.sum : ℕ) : F))

/-- The choice made in `fit_transform` (`/repo/hub_toolbox/hubness.py` lines 713-718). -/
def gini (Nk : List ℕ) : F := if Nk.length > 10000 then giniMemory Nk else giniTime Nk

/-- `_hood_index` (`/repo/hub_toolbox/hubness.py` lines 643-647). -/
def hood (Nk : List ℕ) : F :=
  let mean : F := ((Nk.sum : ℕ) : F) / Nk.length
  (1 / 2 * (Nk.map (fun (x : ℕ) => |(x : F) - mean|)).sum) / ((Nk.sum : ℕ) : F)

/-- `_atkinson_index` with the default `eps = 0.75` (`/repo/hub_toolbox/hubness.py` lines 649-654). -/
noncomputable def atkinson (Nk : List ℕ) : ℝ :=
  let mean : ℝ := ((Nk.sum : ℕ) : ℝ) / Nk.length
  let term : ℝ := ((Nk.map (fun (x : ℕ) => (x : ℝ) ^ (1 - 0.75 : ℝ))).sum / Nk.length) ^ (1 / (1 - 0.75) : ℝ)
  1 - 1 / mean * term

/-- `np.argwhere(p(k_occurrence)).ravel()`. -/
def argwhere (Nk : List ℕ) (p : ℕ → Bool) : List ℕ :=
  (List.range Nk.length).filter (fun j => p (Nk.getD j 0))

/-- `antihubs_` and `antihub_occurrence_` (`/repo/hub_toolbox/hubness.py` lines 656-663). -/
def antihubs (Nk : List ℕ) : List ℕ × F :=
  let a := argwhere Nk (fun x => x = 0)
  (a, (a.length : F) / Nk.length)

/-- `hubs_` and `hub_occurrence_` (`/repo/hub_toolbox/hubness.py` lines 665-669). -/
def hubs (hubSize : F) (k : ℕ) (Nk : List ℕ) (nTest : ℕ) : List ℕ × F :=
  let h := argwhere Nk (fun x => hubSize * k ≤ (x : F))
  (h, (((h.map (fun (j : ℕ) => Nk.getD j 0)).sum : ℕ) : F) / k / nTest)

/-- `groupie_ratio_` (`/repo/hub_toolbox/hubness.py` line 733). -/
def groupie (Nk : List ℕ) (nTest : ℕ) : F := ((Nk.foldr max 0 : ℕ) : F) / nTest

end Statistics

/-- The attributes set by `fit_transform`. `lists` is `k_neighbors_`, flattened row by row (this is what
the sparse branch stores; the other branches store it as a matrix). -/
structure Fit (F : Type) where
  lists : List ℕ
  kOcc : List ℕ
  skewness : ℝ
  truncnorm : XR ℝ
  gini : F
  hood : F
  atkinson : ℝ
  antihubs : List ℕ
  antihubOccurrence : F
  hubs : List ℕ
  hubOccurrence : F
  groupie : F

/-- `/repo/hub_toolbox/hubness.py` lines 699-734: statistics of the neighbour lists. -/
noncomputable def stats {F : Type} [Field F] [LinearOrder F] (hubSize : F) (k n m : ℕ) (lists : List ℕ) :
    Fit F :=
  let Nk := Np.bincount lists m
  { lists := lists
    kOcc := Nk
    skewness := skew Nk
    truncnorm := skewnessTruncnorm Nk
    gini := gini Nk
    hood := hood Nk
    atkinson := atkinson Nk
    antihubs := (antihubs (F := F) Nk).1
    antihubOccurrence := (antihubs Nk).2
    hubs := (hubs hubSize k Nk n).1
    hubOccurrence := (hubs hubSize k Nk n).2
    groupie := groupie Nk n }

/-- A matrix of neighbour lists, row by row (`.ravel()`). -/
def ravel {n k : ℕ} (rows : Fin n → Fin k → ℕ) : List ℕ :=
  (List.finRange n).flatMap (fun i => List.ofFn (rows i))

/-- The data given to `fit_transform`. -/
inductive Data (K : Type)
  /-- vectors; `Y = none` is python's `None` -/
  | vectors (n p : ℕ) (X : Fin n → Fin p → K) (Y : Option (Σ m q : ℕ, Fin m → Fin q → K))
  /-- a precomputed matrix; `Y` tells whether a second argument was given -/
  | dense (n m : ℕ) (D : Fin n → Fin m → XR K) (Y : Bool)
  /-- a precomputed sparse matrix, by the stored entries of its rows -/
  | sparse (n m : ℕ) (D : Fin n → List (Fin m × XR K)) (Y : Bool)

/-- Everything which is not determined by the arguments. -/
structure World (K : Type) [LinearOrder K] where
  argpart : ArgPart (XR K)
  rnd : Rnd
  /-- order of the cell writes of the worker pool -/
  sched : ∀ n k : ℕ, List ((Fin n × Fin k) × ℕ) → List ((Fin n × Fin k) × ℕ)
  sched_perm : ∀ n k l, (sched n k l).Perm l

/-- The neighbour lists computed by `fit_transform` (`/repo/hub_toolbox/hubness.py` lines 672-702), with the number of test and of training
objects. Python decides by `metric` whether the array is a matrix of distances or of vectors; here `Data` says
it: `dense` and `sparse` stand for calls with `metric='precomputed'`, `vectors` for the other metrics. -/
def fitLists {K : Type} [Field K] [LinearOrder K] (w : World K) (metric : String) (nJobs : ℤ) (k bs : ℕ)
    (shuffle hasSelf : Bool) : Data K → Py (ℕ × ℕ × List ℕ)
  | .dense n m D Y =>
    if Y then .error .valueError
    else do
      let start := if n = m ∧ hasSelf then 1 else 0
      let rows ← precomputed w.argpart w.rnd shuffle start k D
      pure (n, m, ravel rows)
  | .sparse n m D Y =>
    if Y then .error .valueError
    else do
      let l ← precomputedSparse w.argpart w.rnd shuffle k D
      pure (n, m, l)
  | .vectors n _ X none => do
    let rows ← kNeighbors w.argpart metric nJobs 1 k bs (w.sched n k) X X
    pure (n, n, ravel rows)
  | .vectors n p X (some ⟨m, q, Y⟩) =>
    if h : q = p then do
      let rows ← kNeighbors w.argpart metric nJobs 0 k bs (w.sched n k) X (fun i f => Y i (f.cast h.symm))
      pure (n, m, ravel rows)
    else .error .assertionError

/-- `Hubness.fit_transform` (`/repo/hub_toolbox/hubness.py` lines 671-734). `k = None` fails in `np.arange`. -/
noncomputable def fitTransform {K F : Type} [Field K] [LinearOrder K] [Field F] [LinearOrder F]
    (w : World K) (P : Params F) (bs : ℕ) (shuffle hasSelf : Bool) (X : Data K) : Py (Fit F) :=
  match P.k with
  | none => .error .typeError
  | some k => do
    let (n, m, lists) ← fitLists w P.metric P.nJobs k.toNat bs shuffle hasSelf X
    pure (stats P.hubSize k.toNat n m lists)

/-- `hubness_from_vectors` (`/repo/hub_toolbox/hubness.py` lines 304-379) for `k ≥ 0`; `dist` is the value of
`pairwise_distances(…, metric)` on a pair of vectors. Returns `D_k` and `N_k` (and `S_k`). -/
noncomputable def fromVectors {K : Type} [LinearOrder K] (o : ArgPart (XR K)) (k : ℕ) {n p : ℕ}
    (dist : (Fin p → K) → (Fin p → K) → XR K) (X : Fin n → Fin p → K)
    (Y : Option (Σ m q : ℕ, Fin m → Fin q → K)) : Py (ℝ × (Fin n → Fin k → ℕ) × List ℕ) :=
  match Y with
  | none => do
    let Dk ← loop n (fun i j => dist (X i) (X j)) 1
    pure (skew (Np.bincount (ravel Dk) n), Dk, Np.bincount (ravel Dk) n)
  | some ⟨m, q, Y⟩ =>
    if h : q = p then do
      let Dk ← loop m (fun i j => dist (X i) (fun f => Y j (f.cast h.symm))) 0
      pure (skew (Np.bincount (ravel Dk) m), Dk, Np.bincount (ravel Dk) m)
    else .error .assertionError
where
  /-- lines 365-371 -/
  loop (m : ℕ) (d : Fin n → Fin m → XR K) (start : ℕ) : Py (Fin n → Fin k → ℕ) :=
    (List.finRange n).foldlM (fun (Dk : Fin n → Fin k → ℕ) (i : Fin n) => do
      let row ← rowNN o false 1 start k (d i)
      pure (Function.update Dk i (fun c => (row c).val))) (fun _ _ => 0)

end HubToolbox.HubClass
