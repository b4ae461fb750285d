import Verif.SNN.Model
import Mathlib.Algebra.Order.Floor.Ring
import Mathlib.Analysis.SpecialFunctions.Pow.Real

/-!
# Model of `hub_toolbox/centering.py`

Vector data are two-dimensional arrays of finite numbers (simplification: special values in the data are not modelled).
Results are floats, as empty means and zero divisors yield `nan`. As everywhere, arithmetic is exact; in particular
`sklearn.metrics.pairwise.euclidean_distances(squared=True)` yields the sum of squared differences.
-/

set_option autoImplicit false

namespace HubToolbox.Cent

open HubToolbox

section
variable {K : Type} [Field K] [LinearOrder K]

/-- `X[rows].mean(axis=0)`. -/
def rowsMean {n m : ℕ} (X : Fin n → Fin m → K) (rows : List (Fin n)) (f : Fin m) : XR K :=
  XR.mean (fun c : Fin rows.length => (.fin (X (rows.get c) f) : XR K))

/-- `A.dot(B)` of float matrices. -/
def dot {n m l : ℕ} (A : Fin n → Fin m → XR K) (B : Fin m → Fin l → XR K) : Fin n → Fin l → XR K :=
  fun i j => XR.sum (fun f => XR.mul (A i f) (B f j))

/-- `H = np.identity(n) - np.ones((n, n)) / n` (`/repo/hub_toolbox/centering.py` line 81). -/
def centeringMatrix (n : ℕ) : Fin n → Fin n → XR K :=
  fun i j => XR.sub (.fin (if i = j then 1 else 0)) (XR.div (.fin 1) (.fin (n : K)))

/-- `centering` (`/repo/hub_toolbox/centering.py` lines 24-94) of a dense two-dimensional array. `mask` are the values
of the array `test_set_mask`, compared with row numbers by `np.setdiff1d` (a boolean array counts as zeros and ones). -/
def centering {n m : ℕ} (X : Fin n → Fin m → K) (metric : String) (mask : Option (List ℤ)) :
    Py (Fin n → Fin m → XR K) :=
  if metric ∈ ["similarity", "distance", "inner", "inner_product"] then
    if mask.isSome then .error .notImplementedError
    else if h : m = n then
      let H := centeringMatrix (K := K) n
      let R := dot (dot H (fun i j => .fin (X i (j.cast h.symm)))) H
      .ok (fun i j => R i (j.cast h))
    else .error .typeError
  else if metric = "vector" then
    .ok (fun i f => XR.sub (.fin (X i f)) (rowsMean X (LS.trainInd n mask) f))
  else .error .valueError

/-- `euclidean_distances(.., .., squared=True)` for one pair. -/
def sqDist {m : ℕ} (x y : Fin m → K) : K := ∑ f, (x f - y f) ^ 2

/-- `dis_sim_global` (`/repo/hub_toolbox/centering.py` lines 284-325). `Y = none` is python's `None`.
`euclidean_distances` raises `ValueError` for arrays without rows or columns. -/
def disSimGlobal {n m : ℕ} (X : Fin n → Fin m → K) (Y : Option (Σ l m' : ℕ, Fin l → Fin m' → K)) :
    Py (Σ l : ℕ, Fin n → Fin l → XR K) :=
  let Y : Σ l m' : ℕ, Fin l → Fin m' → K := Y.getD ⟨n, m, X⟩
  if h : m = Y.2.1 then
    if n = 0 ∨ Y.1 = 0 ∨ m = 0 then .error .valueError
    else
      let V : Fin Y.1 → Fin m → K := fun j f => Y.2.2 j (f.cast h)
      let c : Fin m → XR K := rowsMean V (List.finRange Y.1)
      let toC : (Fin m → K) → XR K := fun x => XR.sum (fun f =>
        XR.mul (XR.sub (.fin (x f)) (c f)) (XR.sub (.fin (x f)) (c f)))
      .ok ⟨Y.1, fun i j => XR.sub (XR.sub (.fin (sqDist (X i) (V j))) (toC (V j))) (toC (X i))⟩
  else .error .valueError
end

/-! ### DisSim Local -/

/-- Element type of the array `X`: `np.zeros_like(X)` (line 414) and the in-place operations (lines 418-419) keep it. -/
inductive Dtype
  | float64 | int64
  deriving DecidableEq

section
variable {K : Type} [Field K] [LinearOrder K] [FloorRing K]

/-- Value after assignment to an array of that type: conversion to an integer truncates. -/
def Dtype.store (t : Dtype) : XR K → XR K
  | .fin x => match t with
    | .float64 => .fin x
    | .int64 => .fin (if 0 ≤ x then ((⌊x⌋ : ℤ) : K) else ((⌈x⌉ : ℤ) : K))
  | a => a

/-- Local centroids of all rows (`/repo/hub_toolbox/centering.py` lines 340-343, 403-417, 425-439). `dtype` is the type of
the data array which `zeros_like` takes over in the single process branch. The pool writes to an array of doubles; then
`X -= c_k_X` (lines 418, 440) raises `UFuncTypeError`, a `TypeError`, for integer data. -/
def centroids (w : SNN.World K) (nJobs : ℤ) (dtype : Dtype) (k : ℤ) {n l m : ℕ} (D : Fin n → Fin l → XR K)
    (Y : Fin l → Fin m → K) : Py (Fin n → Fin m → XR K) := do
  let C ← Np.tabulateM (fun i => do
    let knn ← SNN.hood w.part "distance" k k (D i)
    pure (rowsMean Y knn))
  if nJobs > 1 then
    let mem := Sched.exec (fun _ : Fin n × Fin m => (.fin 0 : XR K))
      (w.sched ((List.finRange n).flatMap (fun (i : Fin n) =>
        (List.finRange m).map (fun f => ((i, f), C i f)))))
    if dtype = .int64 then throw .typeError
    pure (fun i f => mem (i, f))
  else pure (fun i f => dtype.store (C i f))

/-- `(X - c_k_X)**2` summed over columns (`/repo/hub_toolbox/centering.py` lines 418-420, 440-442). -/
def toCentroid {n m : ℕ} (X : Fin n → Fin m → K) (C : Fin n → Fin m → XR K) (i : Fin n) : XR K :=
  XR.sum (fun f => XR.mul (XR.sub (.fin (X i f)) (C i f)) (XR.sub (.fin (X i f)) (C i f)))

/-- `dis_sim_local` (`/repo/hub_toolbox/centering.py` lines 345-449). `Y = none` is python's `None`; the copies in lines 379
and 384 make the identity tests equivalent to that. `dtype`, `dtypeY` are the element types of `X` and `Y`. -/
def disSimLocal (w : SNN.World K) {n m : ℕ} (X : Fin n → Fin m → K) (dtype : Dtype)
    (Y : Option (Dtype × Σ l m' : ℕ, Fin l → Fin m' → K)) (k nJobs : ℤ) : Py (Σ l : ℕ, Fin n → Fin l → XR K) :=
  match Y with
  | none => do
    if n = 0 ∨ m = 0 then throw .valueError
    let D : Fin n → Fin n → XR K := Np.fillDiagonal (fun i j => .fin (sqDist (X i) (X j))) .pinf
    let C ← centroids w nJobs dtype k D X
    pure ⟨n, Np.fillDiagonal (fun i j => XR.sub (XR.sub (D i j) (toCentroid X C i)) (toCentroid X C j)) .ninf⟩
  | some (dtypeY, ⟨l, m', Y⟩) =>
    if h : m = m' then do
      if n = 0 ∨ l = 0 ∨ m = 0 then throw .valueError
      let V : Fin l → Fin m → K := fun j f => Y j (f.cast h)
      let C ← centroids w nJobs dtype k (fun i j => .fin (sqDist (X i) (V j))) V
      let C' ← centroids w nJobs dtypeY k (fun i j => .fin (sqDist (V i) (V j))) V
      pure ⟨l, fun i j => XR.sub (XR.sub (.fin (sqDist (X i) (V j))) (toCentroid X C i)) (toCentroid V C' j)⟩
    else throw .valueError
end

/-! ### Weighted and localized centering -/

/-- `d ** gamma` for floats which are not negative (distances; a negative base does not occur). numpy yields one for
`gamma == 0`, even for `nan`. -/
noncomputable def powNN (a : XR ℝ) (gamma : ℝ) : XR ℝ :=
  if gamma = 0 then .fin 1 else
  match a with
  | .fin x => if x = 0 ∧ gamma < 0 then .pinf else .fin (x ^ gamma)
  | .pinf => if 0 < gamma then .pinf else .fin 0
  | _ => .nan

/-- `np.maximum`-like clipping `D[D < 0] = 0` of one value (`nan` stays). -/
noncomputable def clip0 (a : XR ℝ) : XR ℝ := if XR.flt a (.fin 0) then .fin 0 else a

/-- `cosine_distance(np.array([x, y]))[0, 1]` (`/repo/hub_toolbox/distances.py` lines 28-37). -/
noncomputable def cosPair {m : ℕ} (x y : Fin m → XR ℝ) : XR ℝ :=
  let norm : (Fin m → XR ℝ) → XR ℝ := fun v => XR.sqrt (XR.sum (fun f => XR.mul (v f) (v f)))
  clip0 (XR.sub (.fin 1) (XR.sum (fun f => XR.mul (XR.div (x f) (norm x)) (XR.div (y f) (norm y)))))

/-- `d` of `weighted_centering` (`/repo/hub_toolbox/centering.py` lines 147-160). In the euclidean branch `d[i]` is still
zero when it is subtracted from the vectors. -/
noncomputable def centralities {n m : ℕ} (X : Fin n → Fin m → ℝ) (metric : String) (train : List (Fin n)) :
    Py (Fin n → XR ℝ) :=
  let nTrain : ℝ := train.length
  if metric = "cosine" then
    let s : Fin m → XR ℝ := fun f => XR.sum (fun c : Fin train.length => (.fin (X (train.get c) f) : XR ℝ))
    .ok (fun i => XR.mul (.fin nTrain) (cosPair (fun f => .fin (X i f)) (fun f => XR.div (s f) (.fin nTrain))))
  else if metric = "euclidean" then
    let d0 : ℝ := 0
    .ok (fun _ => XR.sum (fun c : Fin train.length => XR.sum (fun f =>
      XR.sqrt (XR.mul (.fin (X (train.get c) f - d0)) (.fin (X (train.get c) f - d0))))))
  else .error .valueError

/-- `weighted_centering` (`/repo/hub_toolbox/centering.py` lines 96-165). -/
noncomputable def weightedCentering {n m : ℕ} (X : Fin n → Fin m → ℝ) (metric : String) (gamma : ℝ)
    (mask : Option (List ℤ)) : Py (Fin n → Fin m → XR ℝ) := do
  let d ← centralities X metric (LS.trainInd n mask)
  let dSum := XR.sum (fun i => powNN (d i) gamma)
  let w : Fin n → XR ℝ := fun i => XR.div (powNN (d i) gamma) dSum
  let c : Fin m → XR ℝ := fun f => XR.sum (fun i => XR.mul (w i) (.fin (X i f)))
  pure (fun i f => XR.sub (.fin (X i f)) (c f))

/-- `X / div_` after lines 243-245 of `/repo/hub_toolbox/centering.py`: a zero norm is replaced by `1e-7`. -/
noncomputable def unit {n m : ℕ} (X : Fin n → Fin m → ℝ) : Fin n → Fin m → ℝ := fun i f =>
  let norm := √(∑ g, X i g ^ 2)
  X i f / (if norm = 0 then 1e-7 else norm)

/-- `nn` (`/repo/hub_toolbox/centering.py` lines 182, 273): `argpartition(s, kth=-kappa)[-1:-kappa-1:-1]`. -/
def lastOf {K : Type} [LinearOrder K] (o : ArgPart (XR K)) {m : ℕ} (kappa : ℤ) (s : Fin m → XR K) :
    Py (List (Fin m)) := do
  let (p, _) ← Np.argpartition o s (fun _ : Fin 1 => -kappa)
  let stop : ℤ := if -kappa - 1 < 0 then max (-kappa - 1 + m) (-1) else -kappa - 1
  pure ((List.ofFn p).reverse.take (m - 1 - stop).toNat)

/-- The local affinity of each training vector (`/repo/hub_toolbox/centering.py` lines 180-186, 259-276). -/
noncomputable def affinities (w : SNN.World ℝ) (kappa nJobs : ℤ) {l m : ℕ} (W : Fin l → Fin m → ℝ) :
    Py (Fin l → XR ℝ) := do
  let A ← Np.tabulateM (fun i => do
    let nn ← lastOf w.part kappa (fun j => .fin (∑ f, W i f * W j f))
    pure (XR.sum (fun f => XR.mul (.fin (W i f)) (rowsMean W nn f))))
  if SNN.jobs w nJobs > 1 then
    pure (Sched.exec (fun _ : Fin l => (.fin 0 : XR ℝ)) (w.sched ((List.finRange l).map (fun (i : Fin l) => (i, A i)))))
  else pure A

/-- `localized_centering` (`/repo/hub_toolbox/centering.py` lines 188-281). Vectors with different numbers of features make
`v.dot(w.T)` raise `ValueError`. -/
noncomputable def localizedCentering (w : SNN.World ℝ) {n m : ℕ} (X : Fin n → Fin m → ℝ)
    (Y : Option (Σ l m' : ℕ, Fin l → Fin m' → ℝ)) (kappa : ℤ) (gamma : ℝ) (nJobs : ℤ) :
    Py (Σ l : ℕ, Fin n → Fin l → XR ℝ) :=
  let Y : Σ l m' : ℕ, Fin l → Fin m' → ℝ := Y.getD ⟨n, m, X⟩
  if h : m = Y.2.1 then do
    let V := unit X
    let W : Fin Y.1 → Fin m → ℝ := fun j f => unit Y.2.2 j (f.cast h)
    let A ← affinities w kappa nJobs W
    let A := if gamma ≠ 1 ∧ ∀ j, ¬ XR.flt (A j) (.fin 0) then (fun j => powNN (A j) gamma) else A
    pure ⟨Y.1, fun i j => XR.sub (.fin (∑ f, V i f * W j f)) (A j)⟩
  else throw .valueError

end HubToolbox.Cent
