import Verif.Np
import Verif.Sched
import Mathlib.Analysis.SpecialFunctions.Pow.Real

/-!
# Model of `hub_toolbox/hubness.py`, function `hubness`
-/

set_option autoImplicit false

namespace HubToolbox.Hubness

open HubToolbox

variable {K : Type}

/-- The random number generator: the permutation of `range m` returned by the `i`-th call of
`permutation(m)`. Row `i` makes the `i`-th call (`/repo/hub_toolbox/hubness.py` lines 85, 286). -/
abbrev Rnd := ℕ → (m : ℕ) → Equiv.Perm (Fin m)

/-- Order in which the cells of the shared `n × k` result array get written by the worker processes
(`/repo/hub_toolbox/hubness.py` lines 205-217): any order at all. -/
structure Schedule where
  cells : ∀ n k : ℕ, List (Fin n × Fin k)
  perm : ∀ n k : ℕ, (cells n k).Perm (List.finRange n ×ˢ List.finRange k)

/-- Return value `S_k, D_k, N_k` for a matrix with `n` rows. -/
structure Res (n : ℕ) where
  Sk : ℝ
  Dk : Fin n → List ℕ
  Nk : List ℕ

/-- `scipy.stats.skew` (biased), as used in `/repo/hub_toolbox/hubness.py` lines 222, 297:
third central moment over the 3/2-th power of the second, and 0 for constant data
(scipy before 1.9; later versions return nan there). -/
noncomputable def skew (x : List ℕ) : ℝ :=
  let N : ℝ := x.length
  let mean := (x.map (fun v : ℕ => (v : ℝ))).sum / N
  let m2 := (x.map (fun v : ℕ => ((v : ℝ) - mean) ^ 2)).sum / N
  let m3 := (x.map (fun v : ℕ => ((v : ℝ) - mean) ^ 3)).sum / N
  if m2 = 0 then 0 else m3 / m2 ^ (1.5 : ℝ)

/-- Reduction of `k` (`/repo/hub_toolbox/hubness.py` lines 168-172, 238-242). -/
def reduceK (k : ℤ) (m : ℕ) : ℤ := if k ≥ m then (m : ℤ) - 1 else k

/-- `d_self` (`/repo/hub_toolbox/hubness.py` lines 173-180, 243-250). -/
def dSelf (metric : String) : XR K := if metric = "distance" then .pinf else .ninf

/-- First partition position: `kth = arange(k)` for distances, `arange(base - k, base)` for similarities,
where `base` is `m` in the parallel (`/repo/hub_toolbox/hubness.py` line 180) and `n` in the serial
function (line 250). -/
def kthStart (metric : String) (base k : ℕ) : ℤ :=
  if metric = "distance" then 0 else (base : ℤ) - k

/-- Preparation of the copied matrix (`/repo/hub_toolbox/hubness.py` lines 189-198, 258-267). -/
def prepare {n m : ℕ} (sparse : Bool) (dself : XR K) (D : Fin n → Fin m → XR K) :
    Fin n → Fin m → XR K :=
  if sparse then D
  else
    let D := if n = m then Np.fillDiagonal D dself else D
    fun i => Np.replaceNonFinite (D i) dself

/-- The values of one row that are handed to the partial sort
(`/repo/hub_toolbox/hubness.py` lines 71-80, 272-281). -/
def rowValues [DecidableEq K] [Zero K] {n m : ℕ} (metric : String) (dself : XR K)
    (D : Fin n → Fin m → XR K) (i : Fin n) : Fin m → XR K :=
  let d := D i
  let d := if n = m then (fun j => if j.val = i.val then dself else d j)
    else if metric = "distance" then (fun j => if d j = .fin 0 then dself else d j)
    else d
  Np.replaceNonFinite d dself

/-- Selection of the `k` nearest columns of one row
(`/repo/hub_toolbox/hubness.py` lines 81-92, 282-292). -/
def selectRow [LinearOrder K] (o : ArgPart (XR K)) {m k : ℕ} (shuffle : Bool)
    (rp : Equiv.Perm (Fin m)) (kth : Fin k → ℤ) (rev : Bool) (d : Fin m → XR K) :
    Py (Fin k → ℕ) :=
  if shuffle then do
    let d2 : Fin m → XR K := fun p => d (rp p)
    let (d2idx, pos) ← Np.argpartition o d2 kth
    pure (Np.stepSlice rev (fun c => (rp (d2idx (pos c))).val))
  else do
    let (didx, pos) ← Np.argpartition o d kth
    pure (Np.stepSlice rev (fun c => (didx (pos c)).val))

/-- `N_k`, `S_k` and the returned triple (`/repo/hub_toolbox/hubness.py` lines 219-228, 294-302). -/
noncomputable def finish {n k : ℕ} (m : ℕ) (Dk : Fin n → Fin k → ℕ) : Res n :=
  let rows : Fin n → List ℕ := fun i => List.ofFn (Dk i)
  let Nk := Np.bincount ((List.finRange n).flatMap rows) m
  { Sk := skew Nk, Dk := rows, Nk := Nk }

/-- `_hubness_no_multiprocessing` (`/repo/hub_toolbox/hubness.py` lines 230-302).
The result array is filled row by row; a negative `k` makes `np.zeros((n, k))` (line 255) raise. -/
noncomputable def serial [LinearOrder K] [Zero K] (o : ArgPart (XR K)) (rnd : Rnd) {n m : ℕ}
    (sparse : Bool) (D : Fin n → Fin m → XR K) (k : ℤ) (metric : String) (shuffle : Bool) :
    Py (Res n) := do
  checkValidMetric metric
  let k := reduceK k m
  if k < 0 then throw .valueError
  let k := k.toNat
  let dself : XR K := dSelf metric
  let kth := Np.arange (kthStart metric n k) k
  let D := prepare sparse dself D
  let Dk ← (List.finRange n).foldlM (fun (Dk : Fin n → Fin k → ℕ) (i : Fin n) => do
      let row ← selectRow o shuffle (rnd i m) kth (metric = "similarity") (rowValues metric dself D i)
      pure (Function.update Dk i row)) (fun _ _ => 0)
  pure (finish m Dk)

/-- The multiprocessing branch of `hubness` (`/repo/hub_toolbox/hubness.py` lines 164-228) with worker
`_hubness_nearest_neighbors` (lines 67-92). The rows are computed from the immutable matrix and each worker
stores the cells of its row in the shared array; `sched` is the order of all these stores.
Simplification: an empty shared array (`n * k = 0`) is treated like any other. -/
noncomputable def parallel [LinearOrder K] [Zero K] (o : ArgPart (XR K)) (rnd : Rnd)
    (sched : Schedule) {n m : ℕ} (sparse : Bool) (D : Fin n → Fin m → XR K) (k : ℤ)
    (metric : String) (nJobs : ℤ) (shuffle : Bool) : Py (Res n) := do
  checkValidMetric metric
  let k := reduceK k m
  if k < 0 then throw .valueError
  let k := k.toNat
  let dself : XR K := dSelf metric
  let kth := Np.arange (kthStart metric m k) k
  let D := prepare sparse dself D
  if nJobs ≠ -1 ∧ nJobs < 1 then throw .valueError
  let rows ← (List.finRange n).foldlM (fun (R : Fin n → Fin k → ℕ) (i : Fin n) => do
      let row ← selectRow o shuffle (rnd i m) kth (metric = "similarity") (rowValues metric dself D i)
      pure (Function.update R i row)) (fun _ _ => 0)
  let shared := Sched.exec (fun _ : Fin n × Fin k => 0)
    ((sched.cells n k).map (fun a => (a, rows a.1 a.2)))
  pure (finish m (fun i c => shared (i, c)))

/-- `hubness` after the array check (`/repo/hub_toolbox/hubness.py` lines 154-163). `seed` tells whether
`random_state` is given. -/
noncomputable def hubnessMat [LinearOrder K] [Zero K] (o : ArgPart (XR K)) (rnd : Rnd)
    (sched : Schedule) {n m : ℕ} (sparse : Bool) (D : Fin n → Fin m → XR K) (k : ℤ)
    (metric : String) (nJobs : ℤ) (seed : Bool) (shuffle : Bool) : Py (Res n) :=
  if nJobs = 1 then serial o rnd sparse D k metric shuffle
  else if seed then .error .valueError
  else parallel o rnd sched sparse D k metric nJobs shuffle

/-- `hubness` on an arbitrary argument (`/repo/hub_toolbox/hubness.py` lines 94-228): `TypeError` unless `D` is a
2-D array; the order of the seed check and the array check is that of the code. -/
noncomputable def hubness [LinearOrder K] [Zero K] (o : ArgPart (XR K)) (rnd : Rnd)
    (sched : Schedule) (D : PyMat (XR K)) (k : ℤ) (metric : String) (nJobs : ℤ) (seed : Bool)
    (shuffle : Bool) : Py (Σ n, Res n) :=
  if nJobs ≠ 1 ∧ seed then .error .valueError
  else do
    let (sparse, ⟨n, _, a⟩) ← D.check2D
    let r ← hubnessMat o rnd sched sparse a k metric nJobs seed shuffle
    pure ⟨n, r⟩

end HubToolbox.Hubness
