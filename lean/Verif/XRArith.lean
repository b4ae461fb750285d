import Verif.MPEmp.Model
import Mathlib.Analysis.SpecialFunctions.Log.Basic
import Mathlib.Analysis.SpecialFunctions.Exp
import Mathlib.Analysis.Real.Sqrt

/-!
# Float arithmetic without rounding

IEEE-754 rules for the special values. The sign of a zero is not modelled: a zero divisor counts as `+0`.
-/

set_option autoImplicit false

namespace HubToolbox.XR

section
variable {K : Type} [Field K] [LinearOrder K]

/-- `inf * y` for a finite factor `y`. -/
def infMul (y : K) : XR K := if y = 0 then .nan else if 0 < y then .pinf else .ninf

/-- IEEE multiplication. -/
def mul : XR K → XR K → XR K
  | .nan, _ => .nan
  | _, .nan => .nan
  | .fin x, .fin y => .fin (x * y)
  | .fin x, .pinf => infMul x
  | .fin x, .ninf => infMul (-x)
  | .pinf, .fin y => infMul y
  | .ninf, .fin y => infMul (-y)
  | .pinf, .pinf => .pinf
  | .pinf, .ninf => .ninf
  | .ninf, .pinf => .ninf
  | .ninf, .ninf => .pinf

/-- IEEE division. -/
def div : XR K → XR K → XR K
  | .nan, _ => .nan
  | _, .nan => .nan
  | .fin x, .fin y => if y = 0 then infMul x else .fin (x / y)
  | .fin _, .pinf => .fin 0
  | .fin _, .ninf => .fin 0
  | .pinf, .fin y => if 0 ≤ y then .pinf else .ninf
  | .ninf, .fin y => if 0 ≤ y then .ninf else .pinf
  | _, _ => .nan

/-- IEEE subtraction. -/
def sub (a b : XR K) : XR K := XR.add a (XR.neg b)

/-- `np.sum` of a vector. -/
def sum {k : ℕ} (f : Fin k → XR K) : XR K :=
  (List.finRange k).foldl (fun (acc : XR K) (c : Fin k) => XR.add acc (f c)) (.fin 0)

/-- `np.mean` of a vector (the mean of nothing is `nan`). -/
def mean {k : ℕ} (f : Fin k → XR K) : XR K := div (sum f) (.fin (k : K))
end

/-- `np.exp`. -/
noncomputable def exp : XR ℝ → XR ℝ
  | .nan => .nan
  | .ninf => .fin 0
  | .pinf => .pinf
  | .fin x => .fin (Real.exp x)

/-- `np.log`. -/
noncomputable def log : XR ℝ → XR ℝ
  | .nan => .nan
  | .ninf => .nan
  | .pinf => .pinf
  | .fin x => if x = 0 then .ninf else if x < 0 then .nan else .fin (Real.log x)

/-- `np.sqrt`. -/
noncomputable def sqrt : XR ℝ → XR ℝ
  | .nan => .nan
  | .ninf => .nan
  | .pinf => .pinf
  | .fin x => if x < 0 then .nan else .fin (√x)

end HubToolbox.XR
