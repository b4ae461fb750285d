import Verif.Rounding.HubVecModel

/-!
# DisSim Global with rounding

As in `Verif/Cent/Model.lean`, with squared distances as scikit-learn computes them (`Verif/Rounding/HubVecModel.lean`).
-/

set_option autoImplicit false

namespace HubToolbox.Rounding

variable {K : Type} [Field K] [LinearOrder K]

/-- `c = Y.mean(0)` (`/repo/hub_toolbox/centering.py` line 316). `sum` is the sum of a column, in any order. -/
def columnMean (R : Rounding K) (sum : List (XR K) → XR K) {m p : ℕ} (Y : Fin m → Fin p → K) (f : Fin p) : XR K :=
  R.div (sum ((List.ofFn (fun a => Y a f)).map .fin)) (R.ofNat (List.ofFn (fun a => Y a f)).length)

/-- `dis_sim_global(X, Y)` (`/repo/hub_toolbox/centering.py` lines 312-325): `L`, `Lx`, `Ly` are the products of `X` and `Y`, of `X` and the
centroid, and of `Y` and the centroid. -/
def disSimGlobal (R : Rounding K) {n m : ℕ} (L : Products K n m) (Lx : Products K n 1) (Ly : Products K m 1) (i : Fin n) (j : Fin m) : XR K :=
  R.sub (R.sub (R.sqDistances L i j) (R.sqDistances Ly j 0)) (R.sqDistances Lx i 0)

/-- `dis_sim_global(X)` (`/repo/hub_toolbox/centering.py` lines 312-325): the arguments of `euclidean_distances` are the same array, whose self
distances scikit-learn sets to zero. -/
def disSimGlobalSelf (R : Rounding K) {n : ℕ} (L : Products K n n) (Lx : Products K n 1) (i j : Fin n) : XR K :=
  R.sub (R.sub (Np.fillDiagonal (R.sqDistances L) (.fin 0) i j) (R.sqDistances Lx j 0)) (R.sqDistances Lx i 0)

end HubToolbox.Rounding
