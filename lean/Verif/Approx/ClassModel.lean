import Verif.Approx.LocalModel
import Verif.Approx.LshModel
import Verif.Approx.PredictModel

/-!
# Model of `hub_toolbox/approximate.py`, part 7: estimators with their state

An estimator is a record of its parameters and of the attributes which `fit`, `transform` and `predict` set. Methods return the changed
estimator together with their result or exception.

Simplifications: `n_neighbors` (at least 1, checked by the constructor) and `n_samples` are numbers, `y` is one-dimensional, names of algorithms are those which the constructor
leaves. A successful `fit` replaces all attributes set by former calls; the code reads no others as long as the parameters are unchanged.
Therefore changing parameters (`setParams`) makes the estimator unfitted here. Attributes with running times, index parameters
(`nms__method`, `falconn__num_probes`), warnings and messages are not modelled.
-/

set_option autoImplicit false

namespace HubToolbox.Approx

/-- `hr_algorithm` after the constructor (`/repo/hub_toolbox/approximate.py` lines 447-457). -/
inductive Hr where
  | none | mp | mpg | ls | nicdm | dsl
  deriving DecidableEq

/-- `sampling_algorithm` after the constructor (`/repo/hub_toolbox/approximate.py` lines 467-484). -/
inductive Smp where
  | fixed (s : Sampling) | hnsw | lsh
  deriving DecidableEq

/-- Parameters of an estimator (`/repo/hub_toolbox/approximate.py` lines 429-444); the last two are `knn__n_neighbors` and
`knn__weights`. -/
structure Config where
  hr : Hr
  smp : Smp
  metric : String
  nNeighbors : ℕ
  nSamples : ℕ
  nJobs : ℤ
  knnNeighbors : Option ℕ
  weights : Weights
  deriving DecidableEq

/-- The libraries used by a method call: sampling and schedules, partial sorts, normal distribution, distances, answers of the indices
built for the given data, contents of uninitialised memory. -/
structure Lib where
  w : World ℝ
  o : ArgPart (XR ℝ)
  F : MPPar.Dists
  dist : String → ∀ {f : ℕ}, (Fin f → ℝ) → (Fin f → ℝ) → ℝ
  dist_sq : ∀ {f : ℕ} (x y : Fin f → ℝ), dist "sqeuclidean" x y = sqDist x y
  hnsw : String → ∀ {n f : ℕ}, (Fin n → Fin f → ℝ) → (Fin f → ℝ) → ℕ → Answer ℝ n
  lsh : String → ∀ {n f : ℕ}, (Fin n → Fin f → ℝ) → (Fin f → ℝ) → ℕ → List (Fin n)
  near : String → ∀ {n f : ℕ}, (Fin n → Fin f → ℝ) → (Fin f → ℝ) → XR ℝ → List (Fin n)
  memory : ∀ {n k : ℕ}, Fin n → Fin k → XR ℝ

/-- A two-dimensional array of numbers. -/
structure Data where
  n : ℕ
  f : ℕ
  X : Fin n → Fin f → ℝ

/-- A vector of class labels. -/
abbrev Labels := Σ l : ℕ, Fin l → ℤ

/-- What the methods for fitting store besides the objects: `mu_train_` and `sd_train_`, `r_train_`, or `X_train_dist_to_cent_`. -/
inductive Extra (s : ℕ) where
  | nothing
  | moments (m : Fin s → XR ℝ × XR ℝ)
  | radii (k : ℕ) (r : Fin s → Fin k → XR ℝ)
  | toCentroid (d : Fin s → XR ℝ)

/-- `X_train_`, `ind_train_` and the other attributes: for fixed vantage points, numbers `ind` of the vantage points `V` among all `n`
objects; with an index, the neighbours `train` found for all objects `X`. -/
inductive Model (f : ℕ) where
  | fixed (n : ℕ) (ind : List (Fin n)) (V : Fin ind.length → Fin f → ℝ) (extra : Extra ind.length)
  | varied (n k : ℕ) (X : Fin n → Fin f → ℝ) (train : Fin n → Fin k → Fin n × XR ℝ) (extra : Extra n)

/-- The attributes set by a successful `fit`; `y` is `y_train_`. -/
structure Fitted where
  f : ℕ
  y : Option Labels
  model : Model f

/-- `ind_test_` and `sec_dist_`. -/
structure Result where
  t : ℕ
  s : ℕ
  ind : Fin t → Fin s → ℕ
  dist : Fin t → Fin s → XR ℝ

/-- `sec_dist_sparse_`: the same object as `sec_dist_`, or a csr matrix. -/
inductive Sparse where
  | same
  | csr (t n : ℕ) (M : Fin t → Fin n → XR ℝ)

/-- An estimator; `nTrain` is `n_train_`. -/
structure Est where
  config : Config
  nTrain : Option ℕ
  fitted : Option Fitted
  result : Option Result
  sparse : Option Sparse

/-- A new estimator. -/
def Est.new (c : Config) : Est := ⟨c, none, none, none, none⟩

/-- `set_params` of scikit-learn. -/
def Est.setParams (e : Est) (c : Config) : Est := { e with config := c, fitted := none }

/-- The metrics the methods know. -/
def Known (metric : String) : Prop := metric = "sqeuclidean" ∨ metric = "cosine"

instance (metric : String) : Decidable (Known metric) := by unfold Known; infer_instance

/-! ### Fitting -/

/-- Labels of the vantage points (`/repo/hub_toolbox/approximate.py` lines 552-601): `split` of scikit-learn checks that there are as many
labels as objects, k-means++ sampling indexes, and without sampling the labels are taken as they are. -/
def pickLabels (s : Sampling) {n : ℕ} (ind : List (Fin n)) (y : Option Labels) : Py (Option Labels) :=
  match y with
  | none => .ok none
  | some ⟨l, y⟩ =>
    match s with
    | .random => if h : l = n then .ok (some ⟨ind.length, fun a => y (Fin.cast h.symm (ind.get a))⟩) else .error .valueError
    | .kmeanspp => if h : ∀ a : Fin ind.length, (ind.get a).val < l then .ok (some ⟨ind.length, fun a => y ⟨_, h a⟩⟩) else .error .indexError
    | .all => .ok (some ⟨l, y⟩)

/-- Distance of an object to a centroid (`/repo/hub_toolbox/approximate.py` lines 1271-1279, 1331-1342). -/
noncomputable def toCentre (metric : String) {f : ℕ} (x c : Fin f → ℝ) : XR ℝ :=
  if metric = "sqeuclidean" then .fin (sqDist x c)
  else XR.sub (.fin 1) (XR.div (XR.div (.fin (∑ i, x i * c i)) (.fin (√(∑ i, x i ^ 2)))) (.fin (√(∑ i, c i ^ 2))))

/-- Fitting with fixed vantage points (`/repo/hub_toolbox/approximate.py` lines 792-805, 866-880, 1014-1041, 1110-1129, 1223-1250, 1271-1284). -/
noncomputable def fitFixed (L : Lib) (c : Config) (s : Sampling) {n f : ℕ} (X : Fin n → Fin f → ℝ) (y : Option Labels) :
    Py (Option Labels × Model f) := do
  let ind ← vantage L.w (fun i j => L.dist c.metric (X i) (X j)) c.metric s c.nSamples
  let y ← pickLabels s ind y
  let V := fun a => X (ind.get a)
  match c.hr with
  | .none => pure (y, .fixed n ind V .nothing)
  | .mp => pure (y, .fixed n ind V .nothing)
  | .mpg =>
    if ¬ Known c.metric then throw .valueError
    else pure (y, .fixed n ind V (.moments (mpgMoments s (fun a b => L.dist c.metric (V a) (V b)))))
  | .ls | .nicdm =>
    if ¬ Known c.metric then throw .unboundLocalError
    else do
      let r ← Np.tabulateM (fun a : Fin ind.length =>
        trainPart L.o (fun b : Fin ind.length => .fin (L.dist c.metric (V a) (V b))) c.nNeighbors)
      pure (y, .fixed n ind V (.radii c.nNeighbors r))
  | .dsl =>
    if ¬ Known c.metric then throw .valueError
    else do
      let knn ← Np.tabulateM (fun a : Fin ind.length =>
        trainKnn L.o (fun b : Fin ind.length => .fin (L.dist c.metric (V a) (V b))) c.nNeighbors)
      pure (y, .fixed n ind V (.toCentroid (fun a => toCentre c.metric (V a) (centroidOf V (knn a)))))

/-- Final transformation of the distances reported by HNSW (`/repo/hub_toolbox/approximate.py` lines 618-628, 650-655, 672-676). -/
def hnswPost (metric : String) : ℝ → ℝ := if metric = "cosine" then fun d => 1 - d else fun d => d ^ 2

/-- The number in a float. -/
def num : XR ℝ → ℝ
  | .fin x => x
  | _ => 0

/-- Mean and standard deviation of a row of neighbour distances (`/repo/hub_toolbox/approximate.py` lines 1060-1062, 1097-1098). If there is
garbage like `inf` in the row, the standard deviation is `nan` and so are all probabilities. -/
noncomputable def rowMoments {k : ℕ} (r : Fin k → XR ℝ) : XR ℝ × XR ℝ :=
  if ∀ c, (r c).isFinite = true then
    (MPPar.nanmean ((List.finRange k).map (fun c => num (r c))), XR.sqrt (MPPar.nanvar 0 ((List.finRange k).map (fun c => num (r c)))))
  else (.nan, .nan)

/-- Neighbours of all training objects (`/repo/hub_toolbox/approximate.py` lines 810-815, 884-889, 1045-1050, 1133-1137, 1254-1261). -/
noncomputable def annFit (L : Lib) (c : Config) {n f : ℕ} (X : Fin n → Fin f → ℝ) : Py (Fin n → Fin c.nSamples → Fin n × XR ℝ) :=
  if c.smp = .lsh then
    lshFit (L.dist ·) c.metric c.nJobs c.nSamples L.memory (fun i => L.lsh c.metric X (X i)) X
  else
    (hnswFit (fun i => L.hnsw c.metric X (X i)) (hnswPost c.metric) c.nSamples).map (fun r i j => ((r i j).1, .fin (r i j).2))

/-- Fitting with an index (`/repo/hub_toolbox/approximate.py` lines 807-824, 882-897, 1043-1062, 1131-1147, 1252-1284). -/
noncomputable def fitVaried (L : Lib) (c : Config) {n f : ℕ} (X : Fin n → Fin f → ℝ) : Py (Model f) := do
  let train ← annFit L c X
  match c.hr with
  | .none | .mp => pure (.varied n c.nSamples X train .nothing)
  | .mpg => pure (.varied n c.nSamples X train (.moments (fun x => rowMoments (fun j => (train x j).2))))
  | .ls | .nicdm => pure (.varied n c.nSamples X train
      (.radii (min c.nNeighbors c.nSamples) (fun x => firstCols c.nNeighbors (fun j => (train x j).2))))
  | .dsl =>
    if ¬ Known c.metric then throw .valueError
    else pure (.varied n c.nSamples X train (.toCentroid (fun x => toCentre c.metric (X x)
      (centroidOf X (fun j : Fin (min c.nNeighbors c.nSamples) => (train x ⟨j.val, lt_of_lt_of_le j.isLt (Nat.min_le_right _ _)⟩).1)))))

/-- Whether `fit` overwrites `n_samples` with the number of objects (`/repo/hub_toolbox/approximate.py` lines 878, 1026). -/
def overwrites (c : Config) : Bool := decide (c.smp = .fixed .all ∧ (c.hr = .mp ∨ c.hr = .mpg))

/-- The parameters while and after fitting `n` objects. -/
def fitConfig (c : Config) (n : ℕ) : Config := if overwrites c then { c with nSamples := n } else c

/-- The chosen method for fitting (`/repo/hub_toolbox/approximate.py` lines 1417-1437). -/
noncomputable def runFit (L : Lib) (c : Config) (A : Data) (y : Option Labels) : Py (Option Labels × Model A.f) :=
  match c.smp with
  | .fixed s => fitFixed L c s A.X y
  | _ => (fitVaried L c A.X).map (fun m => (y, m))

/-- `check_array` rejects arrays without entries. -/
def Rejected (A : Data) (y : Option Labels) : Prop := A.n = 0 ∨ A.f = 0 ∨ ∃ y', y = some y' ∧ y'.1 = 0

/-- `fit` (`/repo/hub_toolbox/approximate.py` lines 1393-1440): the estimator and the exception, if any. If fitting fails, `n_train_` has
been set already, and `n_samples` where it is overwritten. -/
noncomputable def Est.fit (L : Lib) (e : Est) (A : Data) (y : Option Labels) : Est × Option PyErr :=
  open Classical in
  if Rejected A y then (e, some .valueError)
  else
    match runFit L (fitConfig e.config A.n) A y with
    | .error err => ({ e with nTrain := some A.n, config := fitConfig e.config A.n }, some err)
    | .ok r => ({ e with nTrain := some A.n, config := fitConfig e.config A.n, fitted := some ⟨A.f, r.1, r.2⟩ }, none)

/-! ### Transformation -/

/-- Secondary distances to fixed vantage points (`/repo/hub_toolbox/approximate.py` lines 838-859, 963-1007, 1075-1102, 1163-1215, 1307-1350).
The last case of each match does not occur after `fit` with the same parameters. -/
noncomputable def transformFixed (L : Lib) (c : Config) {s t f : ℕ} (V : Fin s → Fin f → ℝ) (extra : Extra s) (T : Fin t → Fin f → ℝ) :
    Py (Fin t → Fin s → XR ℝ) :=
  match c.hr with
  | .none =>
    let metric := if Known c.metric then c.metric else "sqeuclidean"
    .ok (fun i b => .fin (L.dist metric (T i) (V b)))
  | .mp =>
    if ¬ Known c.metric then .error .valueError
    else .ok (mpMatrix L.w c.nJobs c.nSamples (fun a b => .fin (L.dist c.metric (V a) (V b))) (fun i b => .fin (L.dist c.metric (T i) (V b))))
  | .mpg =>
    if ¬ Known c.metric then .error .valueError
    else match extra with
      | .moments m => .ok (fun i => mpgRow L.F (fun b => L.dist c.metric (T i) (V b)) m)
      | _ => .error .attributeError
  | .ls | .nicdm =>
    if ¬ Known c.metric then .error .valueError
    else match extra with
      | .radii k r => do
        let rTest ← Np.tabulateM (fun i : Fin t => testPart L.o (fun b : Fin s => .fin (L.dist c.metric (T i) (V b))) k)
        pure (fun i b => lsEntry (c.hr = .nicdm) (.fin (L.dist c.metric (T i) (V b))) (rTest i) (r b))
      | _ => .error .attributeError
  | .dsl =>
    if ¬ Known c.metric then .error .valueError
    else match extra with
      | .toCentroid d => do
        let knn ← Np.tabulateM (fun i : Fin t => testKnn L.o (fun b : Fin s => .fin (L.dist c.metric (T i) (V b))) c.nNeighbors)
        pure (fun i b => XR.sub (XR.sub (.fin (L.dist c.metric (T i) (V b))) (toCentre c.metric (T i) (centroidOf V (knn i)))) (d b))
      | _ => .error .attributeError

/-- Neighbours of test objects (`/repo/hub_toolbox/approximate.py` lines 658-677, 744-786). -/
noncomputable def annTrafo (L : Lib) (c : Config) {n t f : ℕ} (k : ℕ) (X : Fin n → Fin f → ℝ) (T : Fin t → Fin f → ℝ) :
    Py (Fin t → Fin k → Fin n × XR ℝ) :=
  if c.smp = .lsh then
    lshTrafo (L.dist ·) c.metric c.nJobs k L.memory (fun i => L.lsh c.metric X (T i)) X T
  else
    (hnswTrafo (fun i => L.hnsw c.metric X (T i)) (hnswPost c.metric) k).map (fun r i j => ((r i j).1, .fin (r i j).2))

/-- Secondary distances to the neighbours found by an index (`/repo/hub_toolbox/approximate.py` lines 832-837, 904-962, 1069-1074, 1088-1102,
1155-1162, 1177-1215, 1292-1306, 1328-1350). -/
noncomputable def transformVaried (L : Lib) (c : Config) {n k t f : ℕ} (X : Fin n → Fin f → ℝ) (train : Fin n → Fin k → Fin n × XR ℝ)
    (extra : Extra n) (T : Fin t → Fin f → ℝ) : Py (Fin t → Fin k → Fin n × XR ℝ) := do
  let test ← annTrafo L c k X T
  match c.hr with
  | .none => pure test
  | .mp =>
    if c.smp = .lsh then pure (fun i j => ((test i j).1, .fin (mpLsh (L.near c.metric X) X (T i) (test i j))))
    else pure (fun i j => ((test i j).1, .fin (mpHnsw (fun x j => ((train x j).1, num (train x j).2))
      (fun j => ((test i j).1, num (test i j).2)) j)))
  | .mpg =>
    match extra with
    | .moments m => pure (fun i j => ((test i j).1, if ∀ j, (test i j).2.isFinite = true then
        mpgRow L.F (fun j => num (test i j).2) (fun j => m (test i j).1) j else .nan))
    | _ => throw .attributeError
  | .ls | .nicdm =>
    match extra with
    | .radii k' r =>
      if h : k' = min c.nNeighbors k then
        if c.hr = .ls ∧ k < c.nNeighbors then throw .indexError
        else pure (fun i j => ((test i j).1, lsEntry (c.hr = .nicdm) (test i j).2 (firstCols c.nNeighbors (fun j => (test i j).2))
          (fun a => r (test i j).1 (Fin.cast h.symm a))))
      else throw .attributeError
    | _ => throw .attributeError
  | .dsl =>
    match extra with
    | .toCentroid d =>
      if ¬ Known c.metric then throw .valueError
      else pure (fun i j => ((test i j).1, XR.sub (XR.sub (test i j).2 (toCentre c.metric (T i) (centroidOf X
        (fun a : Fin (min c.nNeighbors k) => (test i ⟨a.val, lt_of_lt_of_le a.isLt (Nat.min_le_right _ _)⟩).1)))) (d (test i j).1)))
    | _ => throw .attributeError

/-- The chosen transformation (`/repo/hub_toolbox/approximate.py` lines 1464-1489): `ind_test_` and `sec_dist_`. Without sampling `ind_test_`
is not used; here it contains the numbers of all objects. Data with another number of features are rejected by scikit-learn and the
indices. -/
noncomputable def sec (L : Lib) (c : Config) (m : Fitted) (A : Data) : Py Result :=
  if h : A.f = m.f then
    let T : Fin A.n → Fin m.f → ℝ := fun i j => A.X i (Fin.cast h.symm j)
    match m.model with
    | .fixed _ ind V extra => (transformFixed L c V extra T).map (fun D => ⟨A.n, ind.length, fun _ b => (ind.get b).val, D⟩)
    | .varied _ k X train extra => (transformVaried L c X train extra T).map
        (fun D => ⟨A.n, k, fun i j => (D i j).1.val, fun i j => (D i j).2⟩)
  else .error .valueError

/-- `_sparse_distance_matrix` (`/repo/hub_toolbox/approximate.py` lines 522-539): `coo_matrix` raises `ValueError` for columns outside of the
shape. -/
noncomputable def sparseOf (c : Config) (nTrain : ℕ) (r : Result) : Py Sparse :=
  if c.smp = .fixed .all then .ok .same
  else if h : ∀ i j, r.ind i j < nTrain then .ok (.csr r.t nTrain (toSparse r.dist (fun i j => ⟨r.ind i j, h i j⟩)))
  else .error .valueError

/-- `transform` (`/repo/hub_toolbox/approximate.py` lines 1442-1495). Unfitted estimators raise `NotFittedError`, a `ValueError`. -/
noncomputable def Est.transform (L : Lib) (e : Est) (A : Data) : Est × Py Result :=
  if A.n = 0 ∨ A.f = 0 then (e, .error .valueError)
  else match e.fitted, e.nTrain with
    | some m, some nTrain =>
      match sec L e.config m A with
      | .error err => (e, .error err)
      | .ok r =>
        let e := { e with result := some r }
        match sparseOf e.config nTrain r with
        | .error err => (e, .error err)
        | .ok s => ({ e with sparse := some s }, .ok r)
    | _, _ => (e, .error .valueError)

/-! ### Prediction -/

/-- `_predict_knn` (`/repo/hub_toolbox/approximate.py` lines 1354-1387) for distances which are finite already: scikit-learn rejects missing
labels and another number of labels than vantage points; with an index `self.y_train_.ndim` raises `AttributeError` without labels. -/
noncomputable def predictKnn (L : Lib) (c : Config) (y : Option Labels) (r : Result) : Py (Fin r.t → ℤ) :=
  match c.smp, y with
  | .fixed _, none => .error .valueError
  | .fixed _, some ⟨l, y⟩ =>
    if h : l = r.s then Np.tabulateM (fun i => knnPredict L.o c.weights (c.knnNeighbors.getD 5) (fun j => y (Fin.cast h.symm j)) (r.dist i))
    else .error .valueError
  | _, none => .error .attributeError
  | _, some ⟨l, y⟩ =>
    Np.tabulateM (fun i =>
      if h : ∀ j, r.ind i j < l then knnPredict L.o c.weights c.nNeighbors (fun j => y ⟨r.ind i j, h j⟩) (r.dist i)
      else .error .indexError)

/-- `predict` (`/repo/hub_toolbox/approximate.py` lines 1497-1526); `enforce_finite_distances` changes `sec_dist_` in place, and thereby
`sec_dist_sparse_` if this is the same object. -/
noncomputable def Est.predict (L : Lib) (e : Est) (A : Data) : Est × Py (Fin A.n → ℤ) :=
  match e.fitted with
  | none => (e, .error .valueError)
  | some m =>
    match Est.transform L e A with
    | (e, .error err) => (e, .error err)
    | (e, .ok r) =>
      match enforceFinite r.dist with
      | .error err => (e, .error err)
      | .ok E =>
        let r' : Result := { r with dist := E }
        ({ e with result := some r' }, (predictKnn L e.config m.y r').map (fun out i => if h : i.val < r.t then out ⟨i.val, h⟩ else 0))

end HubToolbox.Approx
