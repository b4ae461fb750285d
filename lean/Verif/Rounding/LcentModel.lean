import Verif.Rounding.CosineError
import Verif.Cent.Localized

/-!
# Localized centering with rounding

As in `Verif/Cent/Model.lean` with `gamma=1` and `n_jobs=1`, with all results of arithmetic operations rounded. `Y=None` is the case `Y = X`.

Simplification: one format is used for the whole computation (float64 data).
-/

set_option autoImplicit false

namespace HubToolbox.Rounding

section
variable {K : Type} [Field K] [LinearOrder K]

/-- A row of `v = X / div_` (`/repo/hub_toolbox/centering.py` lines 243-245, 252-254): norms of zero are replaced by `1e-7`. -/
def unitRow (R : Rounding K) (L : CosLib K) {n m : ℕ} (X : Fin n → Fin m → K) (i : Fin n) : Fin m → XR K :=
  let d := L.sqrt (L.sum (List.ofFn (fun f => R.mul (.fin (X i f)) (.fin (X i f)))))
  let d := if XR.fle d (.fin 0) ∧ XR.fle (.fin 0) d then R.rnd (1 / 10 ^ 7) else d
  fun f => R.div (.fin (X i f)) d

/-- `np.inner` and entries of `v.dot(w.T)` (`/repo/hub_toolbox/centering.py` lines 249, 256-257, 276). -/
def rowDot (L : CosLib K) {m : ℕ} (x y : Fin m → XR K) : XR K := L.dot (List.ofFn x) (List.ofFn y)

/-- `w[nn, :].mean(axis=0)` (`/repo/hub_toolbox/centering.py` line 275). -/
def localMean (R : Rounding K) (L : CosLib K) {l m : ℕ} (W : Fin l → Fin m → XR K) (nn : List (Fin l)) (f : Fin m) : XR K :=
  R.div (L.sum (nn.map (fun a => W a f))) (R.ofNat nn.length)

/-- `localized_centering` for `gamma=1`, `n_jobs=1` (`/repo/hub_toolbox/centering.py` lines 188-281). -/
def localizedCentering (R : Rounding K) (o : ArgPart (XR K)) (L : CosLib K) {n l m : ℕ} (X : Fin n → Fin m → K) (Y : Fin l → Fin m → K) (kappa : ℤ) :
    Py (Fin n → Fin l → XR K) := do
  let v := R.unitRow L X
  let w := R.unitRow L Y
  let affinity ← Np.tabulateM (fun i => do
    let nn ← Cent.lastOf o kappa (fun j => rowDot L (w i) (w j))
    pure (rowDot L (w i) (R.localMean L w nn)))
  pure (fun i j => R.sub (rowDot L (v i) (w j)) (affinity j))

/-- The affinity of object `i` with its neighbours. -/
def affinity (R : Rounding K) (L : CosLib K) {l m : ℕ} (Y : Fin l → Fin m → K) (nn : List (Fin l)) (i : Fin l) : XR K :=
  rowDot L (R.unitRow L Y i) (R.localMean L (R.unitRow L Y) nn)

theorem localized_ok (R : Rounding K) (o : ArgPart (XR K)) (L : CosLib K) {n l m : ℕ} (X : Fin n → Fin m → K) (Y : Fin l → Fin m → K) (k : ℕ)
    (h1 : 1 ≤ k) (hk : k ≤ l) :
    ∃ nn : Fin l → List (Fin l), (∀ i, SNN.Sel "similarity" (fun j => rowDot L (R.unitRow L Y i) (R.unitRow L Y j)) k (nn i)) ∧
      R.localizedCentering o L X Y k = .ok (fun i j => R.sub (rowDot L (R.unitRow L X i) (R.unitRow L Y j)) (R.affinity L Y (nn j) j)) := by
  choose nn hnn hsel using fun i => Cent.lastOf_sel o k h1 hk (fun j => rowDot L (R.unitRow L Y i) (R.unitRow L Y j))
  refine ⟨nn, hsel, ?_⟩
  unfold localizedCentering
  simp only [hnn]
  simp only [bind, Except.bind, pure, Except.pure]
  rw [Np.tabulateM_ok]
  rfl

end

end HubToolbox.Rounding
