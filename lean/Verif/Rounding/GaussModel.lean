import Verif.Rounding.Sum
import Verif.MPPar.Model

/-!
# Mutual Proximity with independent Gauss or Gamma distributions, with rounding

As in `Verif/MPPar/Model.lean` for dense matrices, with all results of arithmetic operations rounded. Matrices may have
any entries here. One format is used for the whole computation (float64 matrices).
-/

set_option autoImplicit false

namespace HubToolbox.Rounding

/-- Functions of numpy and scipy as computed. -/
structure ProbLib (K : Type) where
  sqrt : XR K → XR K
  sum : List (XR K) → XR K
  cdf : XR K → XR K → XR K → XR K
  sf : XR K → XR K → XR K → XR K
  gammainc : XR K → XR K → XR K

section
variable {K : Type} [Field K] [LinearOrder K]

/-- The value is `nan` or a probability. -/
def NanOrUnit (a : XR K) : Prop := a = .nan ∨ ∃ y, a = .fin y ∧ 0 ≤ y ∧ y ≤ 1

/-- What is assumed of these functions: probabilities are in the unit interval and defined for positive scale,
roots of non-negative floats exist, sums add in some order. -/
structure ProbLib.Ok (R : Rounding K) (L : ProbLib K) : Prop where
  sqrt_fin : ∀ x : K, R.Float (.fin x) → 0 ≤ x → ∃ y, L.sqrt (.fin x) = .fin y ∧ 0 ≤ y
  sum_some_order : ∀ l, (∀ a ∈ l, R.Float a) → R.Sums l (L.sum l)
  cdf_unit : ∀ x m s, NanOrUnit (L.cdf x m s)
  sf_unit : ∀ x m s, NanOrUnit (L.sf x m s)
  cdf_fin : ∀ x m s : K, 0 < s → L.cdf (.fin x) (.fin m) (.fin s) ≠ .nan
  sf_fin : ∀ x m s : K, 0 < s → L.sf (.fin x) (.fin m) (.fin s) ≠ .nan
  gammainc_unit : ∀ a x, NanOrUnit (L.gammainc a x)

/-- `np.nanmean` of the values which are not `nan`. -/
def nanmean (R : Rounding K) (L : ProbLib K) (l : List (XR K)) : XR K := R.div (L.sum l) (R.ofNat l.length)

/-- `np.nanvar(.., ddof=ddof)` of the values which are not `nan`: two passes. -/
def nanvar (R : Rounding K) (L : ProbLib K) (ddof : ℕ) (l : List (XR K)) : XR K :=
  if l.length ≤ ddof then .nan
  else
    let avg := R.div (L.sum l) (R.ofNat l.length)
    R.div (L.sum (l.map (fun x => R.mul (R.sub x avg) (R.sub x avg)))) (R.ofNat (l.length - ddof))

/-- `a[a == 0] = 1e-7` for one value (`/repo/hub_toolbox/global_scaling.py` lines 492, 636, 823). -/
def noZero (R : Rounding K) (a : XR K) : XR K := if a = .fin 0 then R.rnd (1 / 10 ^ 7) else a

/-- The values of column `j` in the rows `rows` which are not `nan`, the diagonal being `nan`
(`/repo/hub_toolbox/global_scaling.py` lines 617, 625-626, 818-821). -/
def colVals {n : ℕ} (D : Fin n → Fin n → XR K) (rows : List (Fin n)) (j : Fin n) : List (XR K) :=
  (rows.map (fun i => Np.fillDiagonal D .nan i j)).filter (fun a => decide (a ≠ .nan))

/-- Upper triangle by row, then `D_mp += D_mp.T` and the diagonal (`/repo/hub_toolbox/global_scaling.py` lines 644-668,
828-847). -/
def fillUpper (R : Rounding K) {n : ℕ} (v : XR K) (f : Fin n → Fin n → XR K) : Fin n → Fin n → XR K :=
  let M := (List.finRange n).foldl (fun (M : Fin n → Fin n → XR K) (i : Fin n) =>
    Np.setRowFrom M i (i.val + 1) (f i)) (fun _ _ => .fin 0)
  Np.fillDiagonal (fun i j => R.add (M i j) (M j i)) v

/-- `self_value` (`/repo/hub_toolbox/global_scaling.py` lines 598-601, 800-803). -/
def selfValue (metric : String) : XR K := if metric = "similarity" then .fin 1 else .fin 0

/-- One entry (`/repo/hub_toolbox/global_scaling.py` lines 505-513, 656-664). -/
def gaussEntry (R : Rounding K) (L : ProbLib K) (metric : String) (x mu sd mu' sd' : XR K) : XR K :=
  if metric = "similarity" then R.mul (L.cdf x mu sd) (L.cdf x mu' sd')
  else R.sub (.fin 1) (R.mul (L.sf x mu sd) (L.sf x mu' sd'))

/-- Mean and standard deviation (`/repo/hub_toolbox/global_scaling.py` lines 625-636). -/
def gaussParams (R : Rounding K) (L : ProbLib K) (l : List (XR K)) : XR K × XR K :=
  (R.nanmean L l, R.noZero (L.sqrt (R.nanvar L 0 l)))

/-- `mutual_proximity_gaussi` for dense square matrices (`/repo/hub_toolbox/global_scaling.py` lines 617-668). -/
def gaussiDense (R : Rounding K) (L : ProbLib K) (metric : String) {n : ℕ} (D : Fin n → Fin n → XR K)
    (train : List (Fin n)) : Fin n → Fin n → XR K :=
  let par := fun j => R.gaussParams L (colVals D train j)
  R.fillUpper (selfValue metric)
    (fun i j => R.gaussEntry L metric (D i j) (par i).1 (par i).2 (par j).1 (par j).2)

/-- `_local_gamcdf` (`/repo/hub_toolbox/global_scaling.py` lines 927-950) for one value. -/
def gamCdf (R : Rounding K) (L : ProbLib K) (x a b : XR K) : XR K :=
  let a := if XR.flt a (.fin 0) then .nan else a
  let b := if XR.fle b (.fin 0) then .nan else b
  let x := if XR.flt x (.fin 0) then .fin 0 else x
  L.gammainc a (R.div x b)

/-- One entry (`/repo/hub_toolbox/global_scaling.py` lines 835-842). -/
def gamEntry (R : Rounding K) (L : ProbLib K) (metric : String) (x x' a b a' b' : XR K) : XR K :=
  if metric = "similarity" then R.mul (R.gamCdf L x a b) (R.gamCdf L x' a' b')
  else R.sub (.fin 1) (R.mul (R.sub (.fin 1) (R.gamCdf L x a b)) (R.sub (.fin 1) (R.gamCdf L x' a' b')))

/-- Dense part of `mutual_proximity_gammai` (`/repo/hub_toolbox/global_scaling.py` lines 818-847). -/
def gammaiDense (R : Rounding K) (L : ProbLib K) (metric : String) {n : ℕ} (D : Fin n → Fin n → XR K)
    (train : List (Fin n)) : Fin n → Fin n → XR K :=
  let mu := fun j => R.nanmean L (colVals D train j)
  let va := fun j => R.noZero (R.nanvar L 1 (colVals D train j))
  let A := fun j => R.div (R.mul (mu j) (mu j)) (va j)
  let B := fun j => R.div (va j) (mu j)
  R.fillUpper (selfValue metric) (fun i j => R.gamEntry L metric (D i j) (D j i) (A i) (B i) (A j) (B j))

/-- `mutual_proximity_gaussi` (`/repo/hub_toolbox/global_scaling.py` lines 524-673) for dense square matrices with the default
`sample_size` and `idx`. -/
def gaussi (R : Rounding K) (L : ProbLib K) {n m : ℕ} (D : Fin n → Fin m → XR K) (metric : String)
    (test : Option (List ℤ)) : Py (Σ n : ℕ, Fin n → Fin n → XR K) := do
  let (_, ⟨n, D⟩) ← (PyMat.mat false n m D).checkSquare
  checkValidMetric metric
  pure ⟨n, R.gaussiDense L metric D (LS.trainInd n test)⟩

/-- `mutual_proximity_gammai` (`/repo/hub_toolbox/global_scaling.py` lines 743-849) for dense matrices. -/
def gammai (R : Rounding K) (L : ProbLib K) {n m : ℕ} (D : Fin n → Fin m → XR K) (metric : String)
    (test : Option (List ℤ)) : Py (Σ n : ℕ, Fin n → Fin n → XR K) := do
  let (_, ⟨n, D⟩) ← (PyMat.mat false n m D).checkSquare
  checkValidMetric metric
  pure ⟨n, R.gammaiDense L metric D (LS.trainInd n test)⟩
end

/-- The true functions. -/
noncomputable def ProbLib.real (F : MPPar.Dists) : ProbLib ℝ where
  sqrt := XR.sqrt
  sum l := l.foldl XR.add (.fin 0)
  cdf x m s := match x with
    | .fin x => MPPar.normCdf F x m s
    | _ => .nan
  sf x m s := match x with
    | .fin x => MPPar.normSf F x m s
    | _ => .nan
  gammainc := F.gammainc

end HubToolbox.Rounding
