import Verif.Rounding.Skew
import Verif.HubClass.Model

/-!
# The Atkinson index with rounding
-/

set_option autoImplicit false

namespace HubToolbox.Rounding

/-- Functions of numpy as computed. -/
structure AtkLib where
  sum : List (XR ℝ) → XR ℝ
  pow : XR ℝ → ℝ → XR ℝ

/-- `_atkinson_index` with the default `eps = 0.75` (`/repo/hub_toolbox/hubness.py` lines 649-654). Both exponents, `0.25` and `4`, are exact. -/
noncomputable def atkinson (R : Rounding ℝ) (L : AtkLib) (Nk : List ℕ) : XR ℝ :=
  let a := Nk.map (fun v => R.ofNat v)
  let term := L.pow (R.div (L.sum (a.map (fun v => L.pow v (1 / 4)))) (R.ofNat Nk.length)) 4
  R.sub (.fin 1) (R.mul (R.div (.fin 1) (R.div (L.sum a) (R.ofNat Nk.length))) term)

end HubToolbox.Rounding
