import Verif.Rounding.Format
import Verif.SNN.Model

/-!
# Hubness-aware shared neighbours with rounding

As `simhubIN` and `simhub` without labels in `Verif/SNN/Model.lean`, with all results of arithmetic operations rounded. Distances are only compared. The matrix
holds float64 (`np.zeros_like(D)`, or `ctypes.c_double` with worker processes).
-/

set_option autoImplicit false

namespace HubToolbox.Rounding

/-- Functions of numpy as computed. -/
structure ShiLib where
  sum : List (XR ℝ) → XR ℝ
  log : XR ℝ → XR ℝ

/-- `np.log(m / N_s)` (`/repo/hub_toolbox/shared_neighbors.py` lines 432, 600). -/
noncomputable def shiWeight (R : Rounding ℝ) (L : ShiLib) (m N : ℕ) : XR ℝ := L.log (R.div (R.ofNat m) (R.ofNat N))

/-- `np.sum(x * weight)` for one pair (`/repo/hub_toolbox/shared_neighbors.py` lines 326-327, 333-334, 458-464, 609-615). -/
noncomputable def shiShared (R : Rounding ℝ) (L : ShiLib) {m : ℕ} (a b : Fin m → Bool) (weight : Fin m → XR ℝ) : XR ℝ :=
  L.sum (List.ofFn fun c => R.mul (SNN.ofBool (a c && b c)) (weight c))

/-- Normalisation, conversion to distances, self value, selection of test rows (`/repo/hub_toolbox/shared_neighbors.py` lines 467-482, 617-636). -/
noncomputable def shiFinish (R : Rounding ℝ) {n m : ℕ} (S : Fin n → Fin m → XR ℝ) (norm : XR ℝ) (returnDist : Bool)
    (test : Option (Σ t : ℕ, Fin t → Fin n)) : Σ t m : ℕ, Fin t → Fin m → XR ℝ :=
  let S : Fin n → Fin m → XR ℝ := fun i j => R.div (S i j) norm
  let S : Fin n → Fin m → XR ℝ := fun i j => if returnDist then R.add (R.mul (S i j) (.fin (-1))) (.fin 1) else S i j
  match test with
  | none => ⟨n, m, Np.fillDiagonal S (if returnDist then .fin 0 else .fin 1)⟩
  | some ⟨t, v⟩ => ⟨t, m, fun a => S (v a)⟩

/-- `simhubIN` (`/repo/hub_toolbox/shared_neighbors.py` lines 337-482). -/
noncomputable def simhubIN (R : Rounding ℝ) (L : ShiLib) (w : SNN.World ℝ) (D : PyMat (XR ℝ)) (idx : Option (Σ s : ℕ, Fin s → ℤ))
    (test : Option (Σ t : ℕ, Fin t → ℤ)) (s : ℤ) (returnDist : Bool) (nJobs : ℤ) : Py (Σ t m : ℕ, Fin t → Fin m → XR ℝ) := do
  let (sp, ⟨n, m, D, idx⟩) ← SNN.shiCheck D idx
  let (D, idx) ← SNN.shiExclude sp D idx
  if h : m ≤ n then
    let sel : Fin n → List (Fin m) := fun i => SNN.top "distance" (w.srt.run (D i)) s
    let knn := if SNN.jobs w nJobs > 1 then SNN.markParallel w sel else SNN.markSerial sel
    let In : Fin m → XR ℝ := fun j => R.shiWeight L m (SNN.occIN knn j)
    let test ← SNN.wrapTest n test
    let f : Fin n → Fin m → XR ℝ := fun i j => R.shiShared L (knn i) (knn (SNN.partner h (decide (m < 2000)) idx j)) In
    let S := if SNN.jobs w nJobs > 1 then SNN.rowsParallel w (SNN.rowsOf test) f else LS.fillRows (SNN.rowsOf test) f
    pure (R.shiFinish S (R.mul (R.rnd (s : ℝ)) (L.log (R.ofNat m))) returnDist test)
  else throw .valueError

/-- `simhub` with `y=None` (`/repo/hub_toolbox/shared_neighbors.py` lines 484-636). The factor `x` in `x * I_n * info_gain` is 0 or 1, so that the order of the
products does not matter. -/
noncomputable def simhub (R : Rounding ℝ) (L : ShiLib) (w : SNN.World ℝ) (D : PyMat (XR ℝ)) (idx : Option (Σ s : ℕ, Fin s → ℤ))
    (test : Option (Σ t : ℕ, Fin t → ℤ)) (s : ℤ) (returnDist : Bool) (vectUsage : ℤ) : Py (Σ t m : ℕ, Fin t → Fin m → XR ℝ) := do
  let (sp, ⟨n, m, D, idx⟩) ← SNN.shiCheck D idx
  if ¬ (0 < s ∧ s < m) then throw .valueError
  let (D, idx) ← SNN.shiExclude sp D idx
  if h : m ≤ n then
    let knn := SNN.markSerial (fun i => SNN.top "distance" (w.srt.run (D i)) s)
    let vect : Bool := decide (vectUsage > 0 ∨ (vectUsage = 0 ∧ m < 2000))
    let In : Fin m → XR ℝ := fun j => R.shiWeight L m (SNN.occ knn j + 1)
    let test ← SNN.wrapTest n test
    let S := LS.fillRows (SNN.rowsOf test) (fun i j => R.shiShared L (knn i) (knn (SNN.partner h vect idx j)) (fun c => R.mul (In c) (.fin 1)))
    pure (R.shiFinish S (R.mul (R.rnd (s : ℝ)) (L.log (R.ofNat m))) returnDist test)
  else throw .valueError

end HubToolbox.Rounding
