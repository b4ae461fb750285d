import Verif.Np
import Verif.Sched
import Mathlib.Algebra.Field.Basic
import Mathlib.Algebra.Order.Field.Basic

/-!
# Model of empirical Mutual Proximity (`hub_toolbox/global_scaling.py` lines 28-412)
-/

set_option autoImplicit false

namespace HubToolbox

/-- IEEE addition of floats (without rounding). -/
def XR.add {K : Type*} [Add K] : XR K → XR K → XR K
  | .fin x, .fin y => .fin (x + y)
  | .nan, _ => .nan
  | _, .nan => .nan
  | .pinf, .ninf => .nan
  | .ninf, .pinf => .nan
  | .pinf, _ => .pinf
  | _, .pinf => .pinf
  | .ninf, _ => .ninf
  | _, .ninf => .ninf

namespace Np

/-- `np.sum(mask)` for a boolean vector. -/
def countTrue {n : ℕ} (p : Fin n → Bool) : ℕ := (List.finRange n).countP p

/-- `M[i, lo:] = r[lo:]`. -/
def setRowFrom {α : Type*} {n m : ℕ} (M : Fin n → Fin m → α) (i : Fin n) (lo : ℕ) (r : Fin m → α) :
    Fin n → Fin m → α :=
  fun a b => if a = i ∧ lo ≤ b.val then r b else M a b

/-- `M += M.T`. -/
def addT {α : Type*} [Add α] {n : ℕ} (M : Fin n → Fin n → α) : Fin n → Fin n → α :=
  fun i j => M i j + M j i

end Np

namespace MPEmp

variable {K : Type} [Field K] [LinearOrder K]

/-- `test_ind` argument: a boolean mask or an array of integer indices. -/
inductive TestArg
  | mask (b : List Bool)
  | index (l : List ℤ)

/-- `not np.all(~test_set_ind)` (`/repo/hub_toolbox/global_scaling.py` line 263). For a boolean mask `~` is logical
negation; for integers it is bitwise, so `~t` is zero (false) exactly for `t = -1`. -/
def TestArg.notAllInverted : TestArg → Bool
  | .mask b => !(b.all (fun x => !x))
  | .index l => !(l.all (fun t => t ≠ -1))

/-- `self_value` (`/repo/hub_toolbox/global_scaling.py` lines 252-256). -/
def selfValue (metric : String) : K := if metric = "similarity" then 1 else 0

/-- `exclude_value` (`/repo/hub_toolbox/global_scaling.py` lines 252-257). -/
def excludeValue (metric : String) : XR K := if metric = "similarity" then .pinf else .ninf

/-- One entry `D_mp[i, j]` (`/repo/hub_toolbox/global_scaling.py` lines 286-293 and 174-183): the threshold `d`
is compared with the rows `dI` and `dJ` of length `s`. -/
def entry {s : ℕ} (metric : String) (dI dJ : Fin s → XR K) (d : XR K) : K :=
  if metric = "similarity" then
    (Np.countTrue (fun x => decide (XR.fle (dI x) d) && decide (XR.fle (dJ x) d)) : K) / s
  else
    1 - (Np.countTrue (fun x => decide (XR.flt d (dI x)) && decide (XR.flt d (dJ x))) : K) / s

/-- Dense part of `_mutual_proximity_empiric_full` (`/repo/hub_toolbox/global_scaling.py` lines 271-299). -/
def fullDense {n : ℕ} (metric : String) (D : Fin n → Fin n → XR K) : Fin n → Fin n → K :=
  let D := Np.fillDiagonal D (excludeValue metric)
  let Dmp := ((List.finRange n).take (n - 1)).foldl (fun (M : Fin n → Fin n → K) (i : Fin n) =>
    Np.setRowFrom M i (i.val + 1) (fun j => entry metric (D i) (D j) (D j i))) (fun _ _ => 0)
  Np.fillDiagonal (Np.addT Dmp) (selfValue metric)

/-- `S_i.data[S_i.data <= threshold] = 0` (`/repo/hub_toolbox/global_scaling.py` lines 340-341). -/
def suppress {n : ℕ} (t : K) (row : Fin n → K) : Fin n → K := fun x => if row x ≤ t then 0 else row x

/-- `getnnz` of a sparse row without explicit zeros. -/
def nnz {n : ℕ} (row : Fin n → K) : ℕ := Np.countTrue (fun x => decide (row x ≠ 0))

/-- Worker `_mpes_sec_dist` (`/repo/hub_toolbox/global_scaling.py` lines 312-345): the value stored for the pair
`(i, j)`. -/
def secDist {n : ℕ} (minNnz : ℤ) (S : Fin n → Fin n → K) (i j : Fin n) : XR K :=
  if (nnz (S i) : ℤ) ≤ minNnz ∨ (nnz (S j) : ℤ) ≤ minNnz then .nan
  else .fin (1 - (nnz (fun x => suppress (S i j) (S i) x + suppress (S i j) (S j) x) : K) / n)

/-- The pairs handed to the workers: stored entries with `i ≤ j`
(`/repo/hub_toolbox/global_scaling.py` line 378). -/
def pairs {n : ℕ} (S : Fin n → Fin n → K) : List (Fin n × Fin n) :=
  (List.finRange n ×ˢ List.finRange n).filter (fun p => decide (S p.1 p.2 ≠ 0) && decide (p.1 ≤ p.2))

/-- `_mutual_proximity_empiric_sparse` (`/repo/hub_toolbox/global_scaling.py` lines 347-412). `order` is the order in
which the worker processes store their results in the shared array; the array is zero initialised.
Simplifications: the CSR matrix has sorted indices and no explicit zeros, so it is given by its dense content. -/
def sparse {n : ℕ} (order : List (Fin n × Fin n)) (minNnz : ℤ) (S : Fin n → Fin n → K) :
    Fin n → Fin n → XR K :=
  let data := Sched.exec (fun _ : Fin n × Fin n => (.fin 0 : XR K))
    (order.map (fun p => (p, secDist minNnz S p.1 p.2)))
  let sym : Fin n → Fin n → XR K := fun i j => XR.add (data (i, j)) (data (j, i))
  let kept : Fin n → Fin n → XR K := fun i j =>
    if (nnz (S i) : ℤ) ≤ minNnz then .fin (S i j) else sym i j
  Np.fillDiagonal kept (.fin 1)

/-- Matrix argument of the full variant: anything dense, or an `n × m` scipy sparse matrix with finite content. -/
inductive Arg (K : Type)
  | obj (D : PyMat (XR K))
  | csr (n m : ℕ) (S : Fin n → Fin m → K)

/-- Result of `mutual_proximity_empiric`. -/
inductive Result (K : Type)
  | dense (n : ℕ) (M : Fin n → Fin n → K)
  | csr (n : ℕ) (M : Fin n → Fin n → XR K)
  | sampled (t s : ℕ) (M : Fin t → Fin s → XR K)

/-- Checks common to both branches of `_mutual_proximity_empiric_full`
(`/repo/hub_toolbox/global_scaling.py` lines 251-266) after the shape check. -/
def fullChecks (sp : Bool) (metric : String) (test : Option TestArg) : Py Unit := do
  checkValidMetric metric
  if metric ≠ "similarity" ∧ sp then throw .valueError
  match test with
  | none => pure ()
  | some t => if t.notAllInverted then throw .notImplementedError else pure ()

/-- `_mutual_proximity_empiric_full` (`/repo/hub_toolbox/global_scaling.py` lines 245-299), i.e.
`mutual_proximity_empiric` without `sample_ind` (lines 76-81).
`D.shape[0]` in line 246 precedes the array check, so a non-array raises `AttributeError` and a 0-d array
`IndexError`. -/
def full (order : ∀ n, (Fin n → Fin n → K) → List (Fin n × Fin n)) (D : Arg K) (metric : String)
    (test : Option TestArg) (minNnz : ℤ) : Py (Result K) :=
  match D with
  | .obj .noArray => .error .attributeError
  | .obj (.otherDim d _) => .error (if d = 0 then .indexError else .typeError)
  | .obj (.mat _ n m a) =>
    if h : n = m then do
      fullChecks false metric test
      pure (.dense n (fullDense metric (fun i j => a i (j.cast h))))
    else .error .typeError
  | .csr n m S =>
    if h : n = m then do
      fullChecks true metric test
      let S : Fin n → Fin n → K := fun i j => S i (j.cast h)
      pure (.csr n (sparse (order n S) minNnz S))
    else .error .typeError

/-- Core of `_mutual_proximity_empiric_sample` for valid indices
(`/repo/hub_toolbox/global_scaling.py` lines 158-192): `idx j` is the data point of column `j`, `rows` the points
whose rows are computed. Rows not computed stay `nan`. -/
def sampleCore {n s : ℕ} (metric : String) (D : Fin n → Fin s → XR K) (idx : Fin s → Fin n)
    (rows : List (Fin n)) : Fin n → Fin s → XR K :=
  let D := (List.finRange s).foldl (fun (D : Fin n → Fin s → XR K) (j : Fin s) =>
    fun a b => if a = idx j ∧ b = j then excludeValue metric else D a b) D
  let Dmp := rows.foldl (fun (M : Fin n → Fin s → XR K) (i : Fin n) =>
    Function.update M i (fun j => .fin (entry metric (D i) (D (idx j)) (D i j)))) (fun _ _ => .nan)
  (List.finRange s).foldl (fun (M : Fin n → Fin s → XR K) (j : Fin s) =>
    fun a b => if a = idx j ∧ b = j then .fin (selfValue metric) else M a b) Dmp

/-- `_mutual_proximity_empiric_sample` (`/repo/hub_toolbox/global_scaling.py` lines 89-192), i.e.
`mutual_proximity_empiric` with `sample_ind` (lines 82-87), with
`io.check_sample_shape_fits` (`/repo/hub_toolbox/io.py` lines 109-124). `idx` and `test` are 1-D integer arrays
(boolean masks are not modelled here); negative indices wrap around, others out of range raise `IndexError`. -/
def sample (D : PyMat (XR K)) {s' : ℕ} (idx : Fin s' → ℤ) (metric : String)
    (test : Option (Σ t : ℕ, Fin t → ℤ)) : Py (Result K) :=
  match D with
  | .noArray => .error .typeError
  | .otherDim _ _ => .error .typeError
  | .mat sp n s a =>
    if sp then .error .typeError
    else if s > n then .error .valueError
    else if h : s = s' then
      if metric ≠ "distance" ∧ metric ≠ "similarity" then .error .valueError
      else match Np.wrapAll n idx with
        | none => .error .indexError
        | some idx =>
          let idx : Fin s → Fin n := fun j => idx (j.cast h)
          match test with
          | none => .ok (.sampled n s (sampleCore metric a idx (List.finRange n)))
          | some ⟨t, tidx⟩ =>
            match Np.wrapAll n tidx with
            | none => .error .indexError
            | some tidx =>
              .ok (.sampled t s (fun r => sampleCore metric a idx (List.ofFn tidx) (tidx r)))
    else .error .typeError

end MPEmp
end HubToolbox
