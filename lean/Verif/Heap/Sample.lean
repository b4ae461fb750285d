import Verif.Heap.MP
import Verif.LS.Model
import Verif.SNN.Model

/-!
# The functions for distances to a sample, with their in-place operations

Rows of the result may alias each other's inputs: row `i` is computed from row `i` of the matrix and from the rows of all samples.
-/

set_option autoImplicit false

namespace HubToolbox.Heap

open HubToolbox

/-- `for i in rows: L[i, :] = f(D, i)`. -/
def fillRows {α : Type} {n m : ℕ} (rows : List (Fin n)) (D L : Arr n m) (f : (Fin n → Fin m → α) → Fin n → Fin m → α) : M α Unit :=
  rows.foldlM (fun _ i => do
    let V ← read D
    assignV (L i) (f V i)) ()

/-- `return L if test_ind is None else L[test_ind]`: the selected rows are a copy. -/
def selectRows {α : Type} {n s : ℕ} (L : Arr n s) : Option (Σ t : ℕ, Fin t → Fin n) → M α (Σ t : ℕ, Arr t s)
  | none => pure ⟨n, L⟩
  | some ⟨t, v⟩ => do
    let V ← read L
    let A ← new (fun a => V (v a))
    pure ⟨t, A⟩

section
variable {K : Type} [Field K] [LinearOrder K]

/-- `_mutual_proximity_empiric_sample` after its checks (`/repo/hub_toolbox/global_scaling.py` lines 158-192). -/
def empiricSampleH (metric : String) {n s : ℕ} (D : Arr n s) (idx : Fin s → Fin n)
    (test : Option (Σ t : ℕ, Fin t → Fin n)) : M (XR K) (Σ t : ℕ, Arr t s) := do
  let D ← copy D
  storeSamples D idx (MPEmp.excludeValue metric)
  let L ← new (fun _ _ => .nan)
  fillRows (SNN.rowsOf test) D L (fun V i j => .fin (MPEmp.entry metric (V i) (V (idx j)) (V i j)))
  storeSamples L idx (.fin (MPEmp.selfValue metric))
  selectRows L test

end

/-- The finite entries of row `i`. -/
def rowFinVals {n s : ℕ} (V : Fin n → Fin s → XR ℝ) (i : Fin n) : List ℝ :=
  ((List.finRange s).map fun j => V i j).filterMap fun x => match x with | .fin r => some r | _ => none

/-- `mutual_proximity_gaussi_sample` after its checks (`/repo/hub_toolbox/global_scaling.py` lines 479-522): the self distances are overwritten
by `nan`, and by the self value after the parameters have been estimated. -/
noncomputable def gaussiSampleH (F : MPPar.Dists) (metric : String) {n s : ℕ} (D : Arr n s) (idx : Fin s → Fin n)
    (test : Option (Σ t : ℕ, Fin t → Fin n)) : M (XR ℝ) (Σ t : ℕ, Arr t s) := do
  let D ← copy D
  storeSamples D idx .nan
  let V ← read D
  let mu := fun i => MPPar.nanmean (rowFinVals V i)
  let sd := fun i => MPPar.noZero (XR.sqrt (MPPar.nanvar 0 (rowFinVals V i)))
  storeSamples D idx (MPPar.selfValue metric)
  let L ← new (fun _ _ => .fin 0)
  fillRows (SNN.rowsOf test) D L (fun V i j => MPPar.gaussEntry F metric (val (V i j)) (mu i) (sd i) (mu (idx j)) (sd (idx j)))
  storeSamples L idx (MPPar.selfValue metric)
  selectRows L test

/-- The last statements of `local_scaling_sample` and `nicdm_sample`
(`/repo/hub_toolbox/local_scaling.py` lines 128-138, 394-400). -/
def finishH {n s : ℕ} (L : Arr n s) (idx : Fin s → Fin n) (test : Option (Σ t : ℕ, Fin t → Fin n)) : M (XR ℝ) (Σ t : ℕ, Arr t s) := do
  if test.isSome then storeSamples L idx (.fin 0) else modify L (fun V => Np.fillDiagonal V (.fin 0))
  selectRows L test

/-- `local_scaling_sample` after its checks (`/repo/hub_toolbox/local_scaling.py` lines 90-138). -/
noncomputable def localScalingSampleH (o : ArgPart (XR ℝ)) (k : ℤ) {n s : ℕ} (D : Arr n s) (idx : Fin s → Fin n)
    (test : Option (Σ t : ℕ, Fin t → Fin n)) : M (XR ℝ) (Σ t : ℕ, Arr t s) := do
  let D ← copy D
  storeSamples D idx .pinf
  let V ← read D
  let r ← lift (Np.tabulateM (fun i => LS.partAt o (V i) (k - 1)))
  let L ← new (fun _ _ => .fin 0)
  fillRows (SNN.rowsOf test) D L (fun V i j => LS.entry "distance" (V i j) (r i) (r (idx j)))
  finishH L idx test

/-- `nicdm_sample` after its checks (`/repo/hub_toolbox/local_scaling.py` lines 365-400). -/
noncomputable def nicdmSampleH (o : ArgPart (XR ℝ)) (k : ℕ) {n s : ℕ} (D : Arr n s) (idx : Fin s → Fin n)
    (test : Option (Σ t : ℕ, Fin t → Fin n)) : M (XR ℝ) (Σ t : ℕ, Arr t s) := do
  let D ← copy D
  storeSamples D idx .pinf
  let V ← read D
  let r ← lift (Np.tabulateM (fun i => LS.meanRadius o (V i) k))
  let L ← new (fun _ _ => .fin 0)
  fillRows (SNN.rowsOf test) D L (fun V i j => LS.nicdmEntry (LS.geomean r) (V i j) (r i) (r (idx j)))
  finishH L idx test

end HubToolbox.Heap
