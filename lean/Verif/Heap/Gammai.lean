import Verif.Heap.Base
import Verif.MPPar.Model

/-!
# `mutual_proximity_gammai` with its in-place operations

`_local_gamcdf` overwrites what it gets: views of the matrix, and of the arrays of parameters.
-/

set_option autoImplicit false

namespace HubToolbox.Heap

open HubToolbox HubToolbox.MPPar

/-- The indices `i+1, …, n-1` (`slice(i+1, n)`, `/repo/hub_toolbox/global_scaling.py` line 833). -/
def after {n : ℕ} (i : Fin n) (t : Fin (n - (i.val + 1))) : Fin n := ⟨i.val + 1 + t.val, by omega⟩

/-- `a[a < 0] = np.nan` (`/repo/hub_toolbox/global_scaling.py` lines 929-933) for one value. -/
noncomputable def negNan (a : XR ℝ) : XR ℝ := if XR.flt a (.fin 0) then .nan else a

/-- `b[b <= 0] = np.nan` (`/repo/hub_toolbox/global_scaling.py` lines 934-938) for one value. -/
noncomputable def nonposNan (b : XR ℝ) : XR ℝ := if XR.fle b (.fin 0) then .nan else b

/-- `x[x < 0] = 0` (`/repo/hub_toolbox/global_scaling.py` line 939) for one value. -/
noncomputable def negZero (x : XR ℝ) : XR ℝ := if XR.flt x (.fin 0) then .fin 0 else x

/-- `_local_gamcdf(x, a, b)` (`/repo/hub_toolbox/global_scaling.py` lines 927-950) for numbers `a`, `b`: item assignment raises
`TypeError`, so that they get replaced. -/
noncomputable def gamcdfScalar (F : Dists) {l : ℕ} (x : Fin l → Addr) (a b : XR ℝ) : M (XR ℝ) (Fin l → XR ℝ) := do
  let a := negNan a
  let b := nonposNan b
  modifyV x (fun v t => negZero (v t))
  let v ← readV x
  pure (fun t => F.gammainc a (XR.div (v t) b))

/-- `_local_gamcdf(x, a, b)` for arrays `a`, `b`, which are overwritten. -/
noncomputable def gamcdfArray (F : Dists) {l : ℕ} (x a b : Fin l → Addr) : M (XR ℝ) (Fin l → XR ℝ) := do
  modifyV a (fun v t => negNan (v t))
  modifyV b (fun v t => nonposNan (v t))
  modifyV x (fun v t => negZero (v t))
  let u ← readV a
  let w ← readV b
  let v ← readV x
  pure (fun t => F.gammainc (u t) (XR.div (v t) (w t)))

/-- The finite values of column `j` in the rows `rows`: after the diagonal has been set to `nan`, those which `np.nanmean` and
`np.nanvar` take into account. Simplification: the other values are finite. -/
def finVals {n : ℕ} (V : Fin n → Fin n → XR ℝ) (rows : List (Fin n)) (j : Fin n) : List ℝ :=
  (rows.map fun i => V i j).filterMap fun x => match x with | .fin r => some r | _ => none

/-- One pass of the loop (`/repo/hub_toolbox/global_scaling.py` lines 831-842): the values stored in row `i` of `D_mp`. -/
noncomputable def gammaiRow (F : Dists) (metric : String) {n : ℕ} (D : Arr n n) (A B : Fin n → Addr) (i : Fin n) :
    M (XR ℝ) (Fin (n - (i.val + 1)) → XR ℝ) := do
  let a ← readV A
  let b ← readV B
  let p1 ← gamcdfScalar F (fun t => D i (after i t)) (a i) (b i)
  let p2 ← gamcdfArray F (fun t => D (after i t) i) (fun t => A (after i t)) (fun t => B (after i t))
  pure (fun t => if metric = "similarity" then XR.mul (p1 t) (p2 t)
    else XR.sub (.fin 1) (XR.mul (XR.sub (.fin 1) (p1 t)) (XR.sub (.fin 1) (p2 t))))

/-- `D_mp[i, i+1:] = v`. -/
def setAfter {α : Type} {n : ℕ} (M : Fin n → Fin n → α) (i : Fin n) (v : Fin (n - (i.val + 1)) → α) : Fin n → Fin n → α :=
  fun i' j => if h : i' = i ∧ i.val < j.val then v ⟨j.val - (i.val + 1), by omega⟩ else M i' j

/-- Dense part of `mutual_proximity_gammai` (`/repo/hub_toolbox/global_scaling.py` lines 812-847). `D_mp` is a local array to which
nothing else refers. -/
noncomputable def gammaiH (F : Dists) (metric : String) {n : ℕ} (D : Arr n n) (train : List (Fin n)) :
    M (XR ℝ) (Fin n → Fin n → XR ℝ) := do
  let D ← copy D
  modify D (fun V => Np.fillDiagonal V .nan)
  let V ← read D
  let mu := fun j => nanmean (finVals V train j)
  let va := fun j => noZero (nanvar 1 (finVals V train j))
  let A ← new (fun (_ : Fin 1) j => XR.div (XR.mul (mu j) (mu j)) (va j))
  let B ← new (fun (_ : Fin 1) j => XR.div (va j) (mu j))
  let Dmp ← (List.finRange n).foldlM (fun (M : Fin n → Fin n → XR ℝ) i => do
    let v ← gammaiRow F metric D (A 0) (B 0) i
    pure (setAfter M i v)) (fun _ _ => .fin 0)
  pure (Np.fillDiagonal (fun i j => XR.add (Dmp i j) (Dmp j i)) (selfValue metric))

end HubToolbox.Heap
