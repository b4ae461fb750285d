import Verif.Approx.MPModel
import Verif.LS.Model
import Verif.MPPar.Model

/-!
# Model of `hub_toolbox/approximate.py`, part 4: the other hubness reduction methods

`n_neighbors` is positive, which the constructor makes sure of.
-/

set_option autoImplicit false

namespace HubToolbox.Approx

/-- `SuQHR(hr_algorithm=None, ..).fit(X).transform(T)` for fixed vantage points
(`/repo/hub_toolbox/approximate.py` lines 792-805, 838-860): the distances themselves; an unknown metric is
replaced by `'sqeuclidean'` with a warning. -/
noncomputable def suqhrPlain {P : Type} (w : World ℝ) (dist : String → P → P → ℝ) (metric : String) (smp : Sampling)
    (nSamples : ℕ) {n t : ℕ} (X : Fin n → P) (T : Fin t → P) : Py (Out ℝ t n) := do
  let ind ← vantage w (fun i j => dist metric (X i) (X j)) metric smp nSamples
  let metric := if metric = "sqeuclidean" ∨ metric = "cosine" then metric else "sqeuclidean"
  let D : Fin t → Fin ind.length → XR ℝ := fun i b => .fin (dist metric (T i) (X (ind.get b)))
  pure ⟨ind, D, toSparse D (fun _ c => ind.get c)⟩

/-! ### Gaussian Mutual Proximity -/

/-- `mu_train_` and `sd_train_` for fixed vantage points (`/repo/hub_toolbox/approximate.py` lines 1036-1039,
1060-1062): the first values leave out the own distances, but are overwritten unless `sampling_algorithm` is `None`. -/
noncomputable def mpgMoments (smp : Sampling) {s : ℕ} (D : Fin s → Fin s → ℝ) : Fin s → XR ℝ × XR ℝ :=
  let without := fun j => (MPPar.nanmean (MPPar.colVals D (List.finRange s) j),
    XR.sqrt (MPPar.nanvar 0 (MPPar.colVals D (List.finRange s) j)))
  let D := Np.fillDiagonal D 0
  if smp = .all then without
  else fun j => (MPPar.nanmean ((List.finRange s).map (D j)), XR.sqrt (MPPar.nanvar 0 ((List.finRange s).map (D j))))

/-- One row of secondary distances (`/repo/hub_toolbox/approximate.py` lines 1096-1101); `mom` are the moments of the
training objects of the columns. -/
noncomputable def mpgRow (F : MPPar.Dists) {s : ℕ} (d : Fin s → ℝ) (mom : Fin s → XR ℝ × XR ℝ) (j : Fin s) : XR ℝ :=
  let mu := MPPar.nanmean ((List.finRange s).map d)
  let sd := XR.sqrt (MPPar.nanvar 0 ((List.finRange s).map d))
  XR.sub (.fin 1) (XR.mul (MPPar.normSf F (d j) mu sd) (MPPar.normSf F (d j) (mom j).1 (mom j).2))

/-- `SuQHR(hr_algorithm='MPG', ..).fit(X).transform(T)` for fixed vantage points
(`/repo/hub_toolbox/approximate.py` lines 1014-1042, 1056-1102). -/
noncomputable def suqhrMPG {P : Type} (F : MPPar.Dists) (w : World ℝ) (dist : String → P → P → ℝ) (metric : String)
    (smp : Sampling) (nSamples : ℕ) {n t : ℕ} (X : Fin n → P) (T : Fin t → P) : Py (Out ℝ t n) := do
  let ind ← vantage w (fun i j => dist metric (X i) (X j)) metric smp nSamples
  if metric ≠ "sqeuclidean" ∧ metric ≠ "cosine" then throw .valueError
  let mom := mpgMoments smp (fun a b => dist metric (X (ind.get a)) (X (ind.get b)))
  let D : Fin t → Fin ind.length → XR ℝ := fun i => mpgRow F (fun b => dist metric (T i) (X (ind.get b))) mom
  pure ⟨ind, D, toSparse D (fun _ c => ind.get c)⟩

/-- `SuQHR(hr_algorithm='MPG', sampling_algorithm='hnsw', n_samples=k).fit(X).transform(T)`
(`/repo/hub_toolbox/approximate.py` lines 1043-1047, 1056-1062, 1069-1071, 1087-1102): `ind_test_` and `sec_dist_`. -/
noncomputable def hnswMPG (F : MPPar.Dists) {n t : ℕ} (trainQuery : Fin n → ℕ → Answer ℝ n)
    (testQuery : Fin t → ℕ → Answer ℝ n) (post : ℝ → ℝ) (k : ℕ) : Py (Fin t → Fin k → Fin n × XR ℝ) := do
  let train ← hnswFit trainQuery post k
  let test ← hnswTrafo testQuery post k
  let mom := fun x => (MPPar.nanmean ((List.finRange k).map (fun c => (train x c).2)),
    XR.sqrt (MPPar.nanvar 0 ((List.finRange k).map (fun c => (train x c).2))))
  pure (fun i j => ((test i j).1, mpgRow F (fun c => (test i c).2) (fun c => mom (test i c).1) j))

/-! ### Local scaling and NICDM -/

/-- `np.partition(D_train, kth=kth)[:, 1:kth+1]` of one row (`/repo/hub_toolbox/approximate.py` line 1127). -/
def trainPart (o : ArgPart (XR ℝ)) {s : ℕ} (d : Fin s → XR ℝ) (k : ℕ) : Py (Fin k → XR ℝ) :=
  if h : k < s then
    .ok (fun c => d (o.run d (fun _ : Fin 1 => ⟨k, h⟩) ⟨c.val + 1, lt_of_le_of_lt c.isLt h⟩))
  else .error .valueError

/-- `np.partition(D_test, kth=n_neighbors-1)[:, :n_neighbors]` of one row
(`/repo/hub_toolbox/approximate.py` line 1176). -/
def testPart (o : ArgPart (XR ℝ)) {s : ℕ} (d : Fin s → XR ℝ) (k : ℕ) : Py (Fin k → XR ℝ) :=
  if h : k - 1 < s then
    .ok (fun c => d (o.run d (fun _ : Fin 1 => ⟨k - 1, h⟩) ⟨c.val, lt_of_le_of_lt (Nat.le_pred_of_lt c.isLt) h⟩))
  else .error .valueError

/-- `r[:, n_neighbors - 1]` of one row. -/
def lastOf {k : ℕ} (r : Fin k → XR ℝ) : XR ℝ := if h : 0 < k then r ⟨k - 1, Nat.sub_lt h one_pos⟩ else .nan

/-- One secondary distance (`/repo/hub_toolbox/approximate.py` lines 1184-1211): local scaling or NICDM. -/
noncomputable def lsEntry (nicdm : Bool) {k : ℕ} (d : XR ℝ) (rTest rTrain : Fin k → XR ℝ) : XR ℝ :=
  if nicdm then XR.div d (XR.sqrt (XR.mul (XR.mean rTest) (XR.mean rTrain)))
  else LS.entry "distance" d (lastOf rTest) (lastOf rTrain)

/-- `SuQHR(hr_algorithm='LS' or 'NICDM', n_neighbors=k, ..).fit(X).transform(T)` for fixed vantage points
(`/repo/hub_toolbox/approximate.py` lines 1110-1129, 1145-1152, 1163-1216). For another metric `D_train` is not defined. -/
noncomputable def suqhrLS {P : Type} (w : World ℝ) (o : ArgPart (XR ℝ)) (dist : String → P → P → ℝ) (metric : String)
    (smp : Sampling) (nSamples : ℕ) (nicdm : Bool) (k : ℕ) {n t : ℕ} (X : Fin n → P) (T : Fin t → P) :
    Py (Out ℝ t n) := do
  let ind ← vantage w (fun i j => dist metric (X i) (X j)) metric smp nSamples
  if metric ≠ "sqeuclidean" ∧ metric ≠ "cosine" then throw .unboundLocalError
  let rTrain ← Np.tabulateM (fun a : Fin ind.length =>
    trainPart o (fun b : Fin ind.length => .fin (dist metric (X (ind.get a)) (X (ind.get b)))) k)
  let rTest ← Np.tabulateM (fun i : Fin t =>
    testPart o (fun b : Fin ind.length => .fin (dist metric (T i) (X (ind.get b)))) k)
  let D : Fin t → Fin ind.length → XR ℝ :=
    fun i b => lsEntry nicdm (.fin (dist metric (T i) (X (ind.get b)))) (rTest i) (rTrain b)
  pure ⟨ind, D, toSparse D (fun _ c => ind.get c)⟩

/-- `D[:, :kth]` of one row of neighbour distances. The slice is shorter if there are less than `kth` columns, then
local scaling raises `IndexError` and NICDM takes the mean of what is there. -/
def firstCols {k : ℕ} (kth : ℕ) (d : Fin k → XR ℝ) : Fin (min kth k) → XR ℝ :=
  fun c => d ⟨c.val, lt_of_lt_of_le c.isLt (Nat.min_le_right _ _)⟩

/-- `SuQHR(hr_algorithm='LS' or 'NICDM', n_neighbors=kth, sampling_algorithm='hnsw', n_samples=k).fit(X).transform(T)`
(`/repo/hub_toolbox/approximate.py` lines 1131-1140, 1150-1162, 1177-1216): `ind_test_` and `sec_dist_`. -/
noncomputable def hnswLS {n t : ℕ} (trainQuery : Fin n → ℕ → Answer ℝ n) (testQuery : Fin t → ℕ → Answer ℝ n)
    (post : ℝ → ℝ) (nicdm : Bool) (kth k : ℕ) : Py (Fin t → Fin k → Fin n × XR ℝ) := do
  let train ← hnswFit trainQuery post k
  let test ← hnswTrafo testQuery post k
  if nicdm = false ∧ k < kth then throw .indexError
  pure (fun i j => ((test i j).1, lsEntry nicdm (.fin (test i j).2)
    (firstCols kth (fun c => .fin (test i c).2)) (firstCols kth (fun c => .fin (train (test i j).1 c).2))))

/-! ### DisSim Local, squared euclidean distances -/

/-- Squared euclidean distance, entry by entry. -/
def sqDist {f : ℕ} (x y : Fin f → ℝ) : ℝ := ∑ c, (x c - y c) ^ 2

/-- `X[knn, :].mean(axis=0)`. -/
noncomputable def centroidOf {n f k : ℕ} (X : Fin n → Fin f → ℝ) (knn : Fin k → Fin n) : Fin f → ℝ :=
  fun c => (∑ j, X (knn j) c) / k

/-- `np.argpartition(D_train, kth=kth+1)[:, 1:kth+1]` of one row (`/repo/hub_toolbox/approximate.py` line 1244). -/
def trainKnn (o : ArgPart (XR ℝ)) {s : ℕ} (d : Fin s → XR ℝ) (k : ℕ) : Py (Fin k → Fin s) :=
  if h : k + 1 < s then
    .ok (fun c => o.run d (fun _ : Fin 1 => ⟨k + 1, h⟩) ⟨c.val + 1, lt_trans (Nat.succ_lt_succ c.isLt) h⟩)
  else .error .valueError

/-- `np.argpartition(D_test, kth=kth)[:, :kth]` of one row (`/repo/hub_toolbox/approximate.py` line 1325). -/
def testKnn (o : ArgPart (XR ℝ)) {s : ℕ} (d : Fin s → XR ℝ) (k : ℕ) : Py (Fin k → Fin s) :=
  if h : k < s then .ok (fun c => o.run d (fun _ : Fin 1 => ⟨k, h⟩) ⟨c.val, lt_trans c.isLt h⟩)
  else .error .valueError

/-- `SuQHR(hr_algorithm='DSL', metric='sqeuclidean', n_neighbors=k, ..).fit(X).transform(T)` for fixed vantage points
(`/repo/hub_toolbox/approximate.py` lines 1223-1250, 1271-1272, 1279-1291, 1308-1334, 1343-1351). -/
noncomputable def suqhrDSL (w : World ℝ) (o : ArgPart (XR ℝ)) (smp : Sampling) (nSamples k : ℕ) {n t f : ℕ}
    (X : Fin n → Fin f → ℝ) (T : Fin t → Fin f → ℝ) : Py (Out ℝ t n) := do
  let ind ← vantage w (fun i j => sqDist (X i) (X j)) "sqeuclidean" smp nSamples
  let V := fun a => X (ind.get a)
  let knnTrain ← Np.tabulateM (fun a : Fin ind.length =>
    trainKnn o (fun b : Fin ind.length => .fin (sqDist (V a) (V b))) k)
  let knnTest ← Np.tabulateM (fun i : Fin t => testKnn o (fun b : Fin ind.length => .fin (sqDist (T i) (V b))) k)
  let D : Fin t → Fin ind.length → XR ℝ := fun i b => .fin (sqDist (T i) (V b)
    - sqDist (T i) (centroidOf V (knnTest i)) - sqDist (V b) (centroidOf V (knnTrain b)))
  pure ⟨ind, D, toSparse D (fun _ c => ind.get c)⟩

end HubToolbox.Approx
