import Verif.Rounding.SumError
import Verif.Cent.Local

/-!
# DisSim Local with rounding

As in `Verif/Cent/Model.lean` for `Y=None`, `n_jobs=1` and arrays of floats, with all results of arithmetic operations
rounded. scikit-learn computes squared distances from inner products, with the cancellation this entails.

Simplification: one format is used for the whole computation (float64 data).
-/

set_option autoImplicit false

namespace HubToolbox.Rounding

/-- Functions of numpy as computed: sums, inner products (BLAS) and squared norms (`einsum`). Order of the additions and
fused operations are left open. -/
structure VecLib (K : Type) where
  sum : List (XR K) → XR K
  dot : List (XR K) → List (XR K) → XR K
  sq : List (XR K) → XR K

section
variable {K : Type} [Field K] [LinearOrder K]

/-- Exact inner product. -/
def inner : List ℤ → List ℤ → ℤ
  | a :: x, b :: y => a * b + inner x y
  | _, _ => 0

/-- What is assumed of these functions: sums add in some order; inner products are symmetric (the product of a matrix and
its transpose is computed by `syrk`, which mirrors one triangle), they are the rounded product for vectors of length one, exact
for integers so small that all products and all of their partial sums are representable, and bounded as the partial sums
of bounded products are. -/
structure VecLib.Ok [FloorRing K] [IsStrictOrderedRing K] (F : Ieee) (L : VecLib K) : Prop where
  sum_some_order : ∀ l, (∀ a ∈ l, (F.rounding K).Float a) → (F.rounding K).Sums l (L.sum l)
  dot_comm : ∀ x y, L.dot x y = L.dot y x
  dot_single : ∀ a b, L.dot [a] [b] = (F.rounding K).mul a b
  sq_single : ∀ a, L.sq [a] = (F.rounding K).mul a a
  dot_int : ∀ x y : List ℤ, inner (x.map (|·|)) (y.map (|·|)) ≤ 2 ^ F.p → (F.p : ℤ) ≤ F.emax →
    L.dot (x.map (fun z : ℤ => .fin (z : K))) (y.map (fun z : ℤ => .fin (z : K))) = .fin ((inner x y : ℤ) : K)
  sq_int : ∀ x : List ℤ, inner x x ≤ 2 ^ F.p → (F.p : ℤ) ≤ F.emax →
    L.sq (x.map (fun z : ℤ => .fin (z : K))) = .fin ((inner x x : ℤ) : K)
  dot_le : ∀ (x y : List K) (e : ℕ), x.length = y.length → x.length ≤ 2 ^ F.p → (F.p : ℤ) + 2 * e ≤ F.emax →
    (∀ a ∈ x, |a| ≤ 2 ^ e) → (∀ a ∈ y, |a| ≤ 2 ^ e) →
    ∃ g, L.dot (x.map .fin) (y.map .fin) = .fin g ∧ F.round g = .fin g ∧ |g| ≤ x.length * (2 ^ e) ^ 2
  sq_le : ∀ (x : List K) (e : ℕ), x.length ≤ 2 ^ F.p → (F.p : ℤ) + 2 * e ≤ F.emax → (∀ a ∈ x, |a| ≤ 2 ^ e) →
    ∃ g, L.sq (x.map .fin) = .fin g ∧ F.round g = .fin g ∧ 0 ≤ g ∧ g ≤ x.length * (2 ^ e) ^ 2

/-- A row of the data. -/
def row {n m : ℕ} (X : Fin n → Fin m → K) (i : Fin n) : List (XR K) := List.ofFn (fun f => .fin (X i f))

/-- `euclidean_distances(X, squared=True)`: `distances = X.dot(X.T)`, `distances *= -2`, `distances += XX`,
`distances += YY`, `np.maximum(distances, 0)`, zero diagonal. -/
def sqEuclid (R : Rounding K) (L : VecLib K) {n m : ℕ} (X : Fin n → Fin m → K) : Fin n → Fin n → XR K :=
  Np.fillDiagonal (fun i j =>
    let z := R.add (R.add (R.mul (.fin (-2)) (L.dot (row X i) (row X j))) (L.sq (row X i))) (L.sq (row X j))
    if XR.flt z (.fin 0) then .fin 0 else z) (.fin 0)

/-- `Y[knn_idx].mean(axis=0)` (`/repo/hub_toolbox/centering.py` line 417). -/
def centroid (R : Rounding K) (L : VecLib K) {n m : ℕ} (X : Fin n → Fin m → K) (rows : List (Fin n)) (f : Fin m) : XR K :=
  R.div (L.sum (rows.map (fun a => .fin (X a f)))) (R.ofNat rows.length)

/-- `X -= c_k_X`, `X **= 2`, `X.sum(axis=1)` (`/repo/hub_toolbox/centering.py` lines 418-420). -/
def toCentroid (R : Rounding K) (L : VecLib K) {n m : ℕ} (X : Fin n → Fin m → K) (c : Fin m → XR K) (i : Fin n) : XR K :=
  L.sum (List.ofFn (fun f => R.mul (R.sub (.fin (X i f)) (c f)) (R.sub (.fin (X i f)) (c f))))

/-- `dis_sim_local` for `Y=None`, `n_jobs=1` (`/repo/hub_toolbox/centering.py` lines 345-449). -/
def disSimLocal (R : Rounding K) (o : ArgPart (XR K)) (L : VecLib K) {n m : ℕ} (X : Fin n → Fin m → K) (k : ℤ) :
    Py (Fin n → Fin n → XR K) := do
  if n = 0 ∨ m = 0 then throw .valueError
  let D := Np.fillDiagonal (R.sqEuclid L X) .pinf
  let c ← Np.tabulateM (fun i => do
    let knn ← SNN.hood o "distance" k k (D i)
    pure (R.toCentroid L X (R.centroid L X knn) i))
  pure (Np.fillDiagonal (fun i j => R.sub (R.sub (D i j) (c i)) (c j)) .ninf)
end

/-- Exact functions. -/
def VecLib.real (K : Type) [Field K] [LinearOrder K] : VecLib K where
  sum l := l.foldl XR.add (.fin 0)
  dot x y := (List.zipWith XR.mul x y).foldl XR.add (.fin 0)
  sq x := (x.map (fun a => XR.mul a a)).foldl XR.add (.fin 0)

end HubToolbox.Rounding
