import Verif.SNN.Model
import Mathlib.Analysis.Real.Pi.Bounds
import Mathlib.NumberTheory.Harmonic.EulerMascheroni

/-!
# Model of parametric Mutual Proximity (`hub_toolbox/global_scaling.py` lines 415-1029)

Matrices have finite entries (simplification), and are arrays of doubles: `np.fill_diagonal(D, np.nan)` would fail for
integers. Sparse matrices have no explicitly stored zeros, so they are given by their dense content; the conversion to
single precision (lines 894, 996) is not modelled.
-/

set_option autoImplicit false

namespace HubToolbox.MPPar

open HubToolbox

/-- The functions of scipy used by the code, restricted to what is used about them: the distribution function of the
standard normal distribution `phi` and the regularised lower incomplete gamma function `gammainc`, which is `gamma` for a
positive first and non-negative second argument. -/
structure Dists where
  phi : ℝ → ℝ
  phi_mono : Monotone phi
  phi_nonneg : ∀ x, 0 ≤ phi x
  phi_le_one : ∀ x, phi x ≤ 1
  gammainc : XR ℝ → XR ℝ → XR ℝ
  gammainc_nan : ∀ x, gammainc .nan x = .nan
  gammainc_nan' : ∀ a, gammainc a .nan = .nan
  gamma : ℝ → ℝ → ℝ
  gammainc_fin : ∀ a x : ℝ, 0 < a → 0 ≤ x → gammainc (.fin a) (.fin x) = .fin (gamma a x)
  gamma_mono : ∀ a x y : ℝ, 0 < a → 0 ≤ x → x ≤ y → gamma a x ≤ gamma a y
  gamma_zero : ∀ a : ℝ, 0 < a → gamma a 0 = 0
  gamma_le_one : ∀ a x : ℝ, 0 < a → 0 ≤ x → gamma a x ≤ 1

/-- `norm.cdf(x, loc, scale)`: `nan` unless the scale is positive. -/
noncomputable def normCdf (F : Dists) (x : ℝ) (loc scale : XR ℝ) : XR ℝ :=
  match loc, scale with
  | .fin m, .fin s => if 0 < s then .fin (F.phi ((x - m) / s)) else .nan
  | _, _ => .nan

/-- `norm.sf(x, loc, scale)`. -/
noncomputable def normSf (F : Dists) (x : ℝ) (loc scale : XR ℝ) : XR ℝ := XR.sub (.fin 1) (normCdf F x loc scale)

/-- `np.nanmean` of the values which are not `nan`. -/
noncomputable def nanmean (l : List ℝ) : XR ℝ := if l = [] then .nan else .fin (l.sum / l.length)

/-- `np.nanvar(.., ddof=ddof)` of the values which are not `nan`. -/
noncomputable def nanvar (ddof : ℕ) (l : List ℝ) : XR ℝ :=
  if l.length ≤ ddof then .nan
  else .fin ((l.map (fun x => (x - l.sum / l.length) ^ 2)).sum / ((l.length : ℝ) - ddof))

/-- `a[a == 0] = 1e-7` for one value. -/
noncomputable def noZero (a : XR ℝ) : XR ℝ := if a = .fin 0 then .fin 1e-7 else a

/-- The values of column `j` in the rows `rows` without that of `j` itself. -/
def colVals {n : ℕ} (D : Fin n → Fin n → ℝ) (rows : List (Fin n)) (j : Fin n) : List ℝ :=
  (rows.filter (fun i => decide (i ≠ j))).map (fun i => D i j)

/-- The values of row `i` without that of `i` itself, `idx b` being the object of column `b`. -/
def rowVals {n s : ℕ} (D : Fin n → Fin s → ℝ) (idx : Fin s → Fin n) (i : Fin n) : List ℝ :=
  ((List.finRange s).filter (fun b => decide (idx b ≠ i))).map (D i)

/-- `self_value` (`/repo/hub_toolbox/global_scaling.py` lines 468-471, 598-601, 800-803). -/
def selfValue (metric : String) : XR ℝ := if metric = "similarity" then .fin 1 else .fin 0

/-- Upper triangle by row, then `D_mp += D_mp.T` and the diagonal (`/repo/hub_toolbox/global_scaling.py` lines 644-668,
828-847). -/
noncomputable def fillUpper {n : ℕ} (v : XR ℝ) (f : Fin n → Fin n → XR ℝ) : Fin n → Fin n → XR ℝ :=
  let M := (List.finRange n).foldl (fun (M : Fin n → Fin n → XR ℝ) (i : Fin n) =>
    Np.setRowFrom M i (i.val + 1) (f i)) (fun _ _ => .fin 0)
  Np.fillDiagonal (fun i j => XR.add (M i j) (M j i)) v

/-- One entry (`/repo/hub_toolbox/global_scaling.py` lines 505-513, 656-664). -/
noncomputable def gaussEntry (F : Dists) (metric : String) (x : ℝ) (mu sd mu' sd' : XR ℝ) : XR ℝ :=
  if metric = "similarity" then XR.mul (normCdf F x mu sd) (normCdf F x mu' sd')
  else XR.sub (.fin 1) (XR.mul (normSf F x mu sd) (normSf F x mu' sd'))

/-- `mutual_proximity_gaussi` for dense square matrices (`/repo/hub_toolbox/global_scaling.py` lines 617-668). -/
noncomputable def gaussiDense (F : Dists) (metric : String) {n : ℕ} (D : Fin n → Fin n → ℝ) (train : List (Fin n)) :
    Fin n → Fin n → XR ℝ :=
  let mu := fun j => nanmean (colVals D train j)
  let sd := fun j => noZero (XR.sqrt (nanvar 0 (colVals D train j)))
  fillUpper (selfValue metric) (fun i j => gaussEntry F metric (D i j) (mu i) (sd i) (mu j) (sd j))

/-- All entries of `mutual_proximity_gaussi` and `mutual_proximity_gaussi_sample` with samples
(`/repo/hub_toolbox/global_scaling.py` lines 484-517, 620-672). The self values put back in lines 494-496 and 641-642
get overwritten in the end. -/
noncomputable def gaussiEntries (F : Dists) (metric : String) {n s : ℕ} (D : Fin n → Fin s → ℝ) (idx : Fin s → Fin n) :
    Fin n → Fin s → XR ℝ :=
  let mu := fun i => nanmean (rowVals D idx i)
  let sd := fun i => noZero (XR.sqrt (nanvar 0 (rowVals D idx i)))
  fun i b => gaussEntry F metric (D i b) (mu i) (sd i) (mu (idx b)) (sd (idx b))

/-! ### Sparse matrices -/

/-- `S.diagonal().max() != 1. or S.diagonal().min() != 1.`; the maximum of nothing raises `ValueError`, too. -/
def badDiag {n : ℕ} (S : Fin n → Fin n → ℝ) : Prop := n = 0 ∨ ∃ i, S i i ≠ 1

/-- `S_param.getnnz(0) - 1` (`/repo/hub_toolbox/global_scaling.py` lines 702, 705, 881). -/
noncomputable def colNnz {n : ℕ} (S : Fin n → Fin n → ℝ) (train : List (Fin n)) (j : Fin n) : ℝ :=
  ((train.filter (fun i => decide (S i j ≠ 0))).length : ℝ) - 1

/-- `(S_param.sum(0) - 1.) / (S_param.getnnz(0) - 1)`, of the `p`-th powers
(`/repo/hub_toolbox/global_scaling.py` lines 702-705, 877-882). -/
noncomputable def colMoment {n : ℕ} (p : ℕ) (S : Fin n → Fin n → ℝ) (train : List (Fin n)) (j : Fin n) : XR ℝ :=
  XR.div (.fin ((train.map (fun i => S i j ^ p)).sum - 1)) (.fin (colNnz S train j))

/-- `E1 - mu**2`. -/
noncomputable def colVar {n : ℕ} (S : Fin n → Fin n → ℝ) (train : List (Fin n)) (j : Fin n) : XR ℝ :=
  XR.sub (colMoment 2 S train j) (XR.mul (colMoment 1 S train j) (colMoment 1 S train j))

/-- The part common to all sparse variants: rows with more than `minNnz` stored values get written from the diagonal
on, mirrored; all other rows are those of `S` (`/repo/hub_toolbox/global_scaling.py` lines 894-925, 996-1029; with
`minNnz = -1` lines 713-741). -/
noncomputable def sparseFill {n : ℕ} (minNnz : ℤ) (S : Fin n → Fin n → ℝ) (f : Fin n → Fin n → XR ℝ) :
    Fin n → Fin n → XR ℝ :=
  let M := (List.finRange n).foldl (fun (M : Fin n → Fin n → XR ℝ) (i : Fin n) =>
    if (MPEmp.nnz (S i) : ℤ) ≤ minNnz then M
    else Np.setRowFrom M i i.val (fun j => if j = i then .fin (1 / 2) else f i j)) (fun _ _ => .fin 0)
  fun i j => if (MPEmp.nnz (S i) : ℤ) ≤ minNnz then .fin (S i j) else XR.add (M i j) (M j i)

/-- `p[S == 0] = 0` for one value. -/
noncomputable def zeroMissing (x : ℝ) (p : XR ℝ) : XR ℝ := if x = 0 then .fin 0 else p

/-- `_mutual_proximity_gaussi_sparse` (`/repo/hub_toolbox/global_scaling.py` lines 675-741). The parameters
`sample_size` and `min_nnz` are not used. -/
noncomputable def gaussiSparse (F : Dists) {n : ℕ} (S : Fin n → Fin n → ℝ) (_sampleSize _minNnz : ℤ)
    (train : List (Fin n)) : Py (Fin n → Fin n → XR ℝ) :=
  open Classical in
  if badDiag S then .error .valueError
  else
    let mu := fun j => colMoment 1 S train j
    let sd := fun j => XR.sqrt (colVar S train j)
    .ok (sparseFill (-1) S (fun i j => XR.mul (zeroMissing (S i j) (normCdf F (S i j) (mu i) (sd i)))
      (zeroMissing (S j i) (normCdf F (S j i) (mu j) (sd j)))))

/-- `_local_gamcdf` (`/repo/hub_toolbox/global_scaling.py` lines 927-950) for one value; the parameter `mv` always has its
default value. -/
noncomputable def gamCdf (F : Dists) (x : ℝ) (a b : XR ℝ) : XR ℝ :=
  let a := if XR.flt a (.fin 0) then .nan else a
  let b := if XR.fle b (.fin 0) then .nan else b
  let x := if x < 0 then 0 else x
  F.gammainc a (XR.div (.fin x) b)

/-- One entry (`/repo/hub_toolbox/global_scaling.py` lines 835-842). -/
noncomputable def gamEntry (F : Dists) (metric : String) (x x' : ℝ) (a b a' b' : XR ℝ) : XR ℝ :=
  if metric = "similarity" then XR.mul (gamCdf F x a b) (gamCdf F x' a' b')
  else XR.sub (.fin 1) (XR.mul (XR.sub (.fin 1) (gamCdf F x a b)) (XR.sub (.fin 1) (gamCdf F x' a' b')))

/-- Dense part of `mutual_proximity_gammai` (`/repo/hub_toolbox/global_scaling.py` lines 818-847). The in-place changes of
`A`, `B` and `D` by `_local_gamcdf` concern values which are replaced by the same values in every use. -/
noncomputable def gammaiDense (F : Dists) (metric : String) {n : ℕ} (D : Fin n → Fin n → ℝ) (train : List (Fin n)) :
    Fin n → Fin n → XR ℝ :=
  let mu := fun j => nanmean (colVals D train j)
  let va := fun j => noZero (nanvar 1 (colVals D train j))
  let A := fun j => XR.div (XR.mul (mu j) (mu j)) (va j)
  let B := fun j => XR.div (va j) (mu j)
  fillUpper (selfValue metric) (fun i j => gamEntry F metric (D i j) (D j i) (A i) (B i) (A j) (B j))

/-- `va` (`/repo/hub_toolbox/global_scaling.py` lines 881-885, 980-984): unbiased variance. -/
noncomputable def colVar1 {n : ℕ} (S : Fin n → Fin n → ℝ) (train : List (Fin n)) (j : Fin n) : XR ℝ :=
  XR.mul (XR.div (.fin (colNnz S train j)) (.fin (colNnz S train j - 1))) (colVar S train j)

/-- `_mutual_proximity_gammai_sparse` (`/repo/hub_toolbox/global_scaling.py` lines 851-925). -/
noncomputable def gammaiSparse (F : Dists) {n : ℕ} (S : Fin n → Fin n → ℝ) (minNnz : ℤ) (train : List (Fin n)) :
    Py (Fin n → Fin n → XR ℝ) :=
  open Classical in
  if badDiag S then .error .valueError
  else
    let mu := fun j => colMoment 1 S train j
    let A := fun j => XR.div (XR.mul (mu j) (mu j)) (colVar1 S train j)
    let B := fun j => XR.div (colVar1 S train j) (mu j)
    .ok (sparseFill minNnz S (fun i j => XR.mul (gamCdf F (S i j) (A i) (B i)) (gamCdf F (S j i) (A j) (B j))))

/-- `_gumbelcdf` (`/repo/hub_toolbox/global_scaling.py` lines 952-954). -/
noncomputable def gumbelCdf (x : ℝ) (mu beta : XR ℝ) : XR ℝ :=
  XR.exp (XR.neg (XR.exp (XR.div (XR.neg (XR.sub (.fin x) mu)) beta)))

/-- `_mutual_proximity_gumbel_sparse` (`/repo/hub_toolbox/global_scaling.py` lines 956-1029). -/
noncomputable def gumbelSparse {n : ℕ} (S : Fin n → Fin n → ℝ) (minNnz : ℤ) (train : List (Fin n)) :
    Py (Fin n → Fin n → XR ℝ) :=
  open Classical in
  if badDiag S then .error .valueError
  else
    let sd := fun j => XR.sqrt (colVar1 S train j)
    let beta := fun j => XR.div (XR.mul (sd j) (.fin √6)) (.fin Real.pi)
    let mu := fun j => XR.sub (colMoment 1 S train j) (XR.mul (.fin Real.eulerMascheroniConstant) (beta j))
    .ok (sparseFill minNnz S (fun i j => XR.mul (zeroMissing (S i j) (gumbelCdf (S i j) (mu i) (beta i)))
      (zeroMissing (S j i) (gumbelCdf (S j i) (mu j) (beta j)))))

/-! ### Entry points -/

/-- `mutual_proximity_gaussi` (`/repo/hub_toolbox/global_scaling.py` lines 524-673). `np.random.shuffle` works in place and
returns `None` (and needs a sequence, not the slice of line 604), so line 629 raises `TypeError`. -/
noncomputable def gaussi (F : Dists) (D : PyMat ℝ) (metric : String) (sampleSize minNnz : ℤ) (test : Option (List ℤ))
    (idx : Option (Σ s : ℕ, Fin s → ℤ)) : Py (Σ n s : ℕ, Fin n → Fin s → XR ℝ) :=
  match idx with
  | none => do
    let (sp, ⟨n, D⟩) ← D.checkSquare
    checkValidMetric metric
    let train := LS.trainInd n test
    if sp then
      let M ← gaussiSparse F D sampleSize minNnz train
      pure ⟨n, n, M⟩
    else if sampleSize = 0 then pure ⟨n, n, gaussiDense F metric D train⟩
    else throw .typeError
  | some idx => do
    let ⟨n, s, D, idx⟩ ← LS.checkSample D (some idx)
    checkValidMetric metric
    match Np.wrapAll n idx with
    | none => throw .indexError
    | some idx => pure ⟨n, s, LS.setSelf idx (selfValue metric) (gaussiEntries F metric D idx)⟩

/-- `mutual_proximity_gaussi_sample` (`/repo/hub_toolbox/global_scaling.py` lines 415-522). -/
noncomputable def gaussiSample (F : Dists) (D : PyMat ℝ) (idx : Option (Σ s : ℕ, Fin s → ℤ)) (metric : String)
    (test : Option (Σ t : ℕ, Fin t → ℤ)) : Py (Σ t s : ℕ, Fin t → Fin s → XR ℝ) := do
  let ⟨n, s, D, idx⟩ ← LS.checkSample D idx
  checkValidMetric metric
  match Np.wrapAll n idx with
  | none => throw .indexError
  | some idx =>
    let test ← SNN.wrapTest n test
    let M := LS.setSelf idx (selfValue metric) (LS.fillRows (SNN.rowsOf test) (gaussiEntries F metric D idx))
    match test with
    | none => pure ⟨n, s, M⟩
    | some ⟨t, v⟩ => pure ⟨t, s, fun a => M (v a)⟩

/-- `mutual_proximity_gammai` (`/repo/hub_toolbox/global_scaling.py` lines 743-849). `D.shape[0]` in line 794 precedes the array
check. -/
noncomputable def gammai (F : Dists) (D : PyMat ℝ) (metric : String) (minNnz : ℤ) (test : Option (List ℤ)) :
    Py (Σ n : ℕ, Fin n → Fin n → XR ℝ) :=
  match D with
  | .noArray => .error .attributeError
  | .otherDim d _ => .error (if d = 0 then .indexError else .typeError)
  | .mat sp n m a => do
    let (_, ⟨n, D⟩) ← (PyMat.mat sp n m a).checkSquare
    checkValidMetric metric
    let train := LS.trainInd n test
    if sp then
      let M ← gammaiSparse F D minNnz train
      pure ⟨n, M⟩
    else pure ⟨n, gammaiDense F metric D train⟩

end HubToolbox.MPPar
