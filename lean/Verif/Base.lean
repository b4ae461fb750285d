import Mathlib.Order.Defs.LinearOrder
import Mathlib.Order.Basic
import Mathlib.Order.Monotone.Basic
import Mathlib.Algebra.Group.Defs
import Mathlib.Algebra.Order.Group.Unbundled.Basic
import Mathlib.Tactic.Common

/-!
# Python exceptions and IEEE-754 special values

`Py α` is the result of a python call: a value or a raised exception.
`XR K` is a float: a finite number of the ordered type `K` or one of the special values.
-/

set_option autoImplicit false

namespace HubToolbox

/-- The exception classes raised (explicitly or by numpy) in the modelled code. -/
inductive PyErr
  | typeError | valueError | notImplementedError | indexError | zeroDivisionError
  | unboundLocalError | assertionError | attributeError | keyError | overflowError | importError
  deriving DecidableEq, Repr

/-- A python computation which returns a value or raises. -/
abbrev Py (α : Type*) := Except PyErr α

/-- A float without rounding: finite value or special value. -/
inductive XR (K : Type*)
  | ninf
  | fin (x : K)
  | pinf
  | nan
  deriving DecidableEq, Repr

namespace XR
variable {K : Type*}

/-- `np.isfinite`. -/
def isFinite : XR K → Bool
  | fin _ => true
  | _ => false

/-- numpy's sort order (used by `np.sort`, `np.argsort`, `np.partition`, `np.argpartition`):
`-inf < finite < inf < nan`. -/
def le [LE K] : XR K → XR K → Prop
  | ninf, _ => True
  | fin _, ninf => False
  | fin x, fin y => x ≤ y
  | fin _, pinf => True
  | fin _, nan => True
  | pinf, ninf => False
  | pinf, fin _ => False
  | pinf, pinf => True
  | pinf, nan => True
  | nan, nan => True
  | nan, _ => False

instance [LE K] : LE (XR K) := ⟨XR.le⟩

section
variable [LE K]
@[simp] theorem ninf_le (a : XR K) : (ninf : XR K) ≤ a := by cases a <;> trivial
@[simp] theorem le_nan (a : XR K) : a ≤ (nan : XR K) := by cases a <;> trivial
@[simp] theorem fin_le_fin {x y : K} : (fin x ≤ fin y) ↔ x ≤ y := Iff.rfl
@[simp] theorem fin_le_pinf {x : K} : (fin x ≤ pinf) := trivial
@[simp] theorem not_fin_le_ninf {x : K} : ¬ (fin x ≤ ninf) := id
@[simp] theorem not_pinf_le_fin {x : K} : ¬ (pinf ≤ fin x) := id
@[simp] theorem not_pinf_le_ninf : ¬ ((pinf : XR K) ≤ ninf) := id
@[simp] theorem not_nan_le_fin {x : K} : ¬ (nan ≤ fin x) := id
@[simp] theorem not_nan_le_ninf : ¬ ((nan : XR K) ≤ ninf) := id
@[simp] theorem not_nan_le_pinf : ¬ ((nan : XR K) ≤ pinf) := id
@[simp] theorem pinf_le_pinf : ((pinf : XR K) ≤ pinf) := trivial
end

instance decLE [LE K] [DecidableLE K] : DecidableLE (XR K)
  | ninf, _ => isTrue (ninf_le _)
  | fin _, ninf => isFalse id
  | fin x, fin y => inferInstanceAs (Decidable (x ≤ y))
  | fin _, pinf => isTrue trivial
  | fin _, nan => isTrue trivial
  | pinf, ninf => isFalse id
  | pinf, fin _ => isFalse id
  | pinf, pinf => isTrue trivial
  | pinf, nan => isTrue trivial
  | nan, nan => isTrue trivial
  | nan, ninf => isFalse id
  | nan, fin _ => isFalse id
  | nan, pinf => isFalse id

instance [LinearOrder K] : LinearOrder (XR K) where
  le_refl a := by cases a <;> simp
  le_trans a b c := by
    cases a <;> cases b <;> cases c <;> simp
    exact le_trans
  le_antisymm a b := by
    cases a <;> cases b <;> simp
    exact le_antisymm
  le_total a b := by
    cases a <;> cases b <;> simp
    exact le_total _ _
  toDecidableLE := decLE
  toDecidableEq := inferInstance

@[simp] theorem fin_lt_fin [LinearOrder K] {x y : K} : (fin x < fin y) ↔ x < y := by
  rw [← not_le, ← not_le]; simp
@[simp] theorem ninf_lt_fin [LinearOrder K] {x : K} : (ninf < fin x) := by
  rw [← not_le]; simp
@[simp] theorem fin_lt_pinf [LinearOrder K] {x : K} : (fin x < pinf) := by
  rw [← not_le]; simp
@[simp] theorem ninf_lt_pinf [LinearOrder K] : ((ninf : XR K) < pinf) := by
  rw [← not_le]; simp

/-- IEEE `a <= b`: false as soon as an operand is `nan`. -/
def fle [LE K] : XR K → XR K → Prop
  | nan, _ => False
  | _, nan => False
  | ninf, _ => True
  | _, pinf => True
  | fin x, fin y => x ≤ y
  | _, _ => False

/-- IEEE `a < b`: false as soon as an operand is `nan`. -/
def flt [LT K] : XR K → XR K → Prop
  | nan, _ => False
  | _, nan => False
  | ninf, ninf => False
  | ninf, _ => True
  | pinf, _ => False
  | fin _, pinf => True
  | fin x, fin y => x < y
  | _, _ => False

instance [LE K] [DecidableLE K] (a b : XR K) : Decidable (fle a b) := by
  cases a <;> cases b <;> unfold fle <;> infer_instance

instance [LT K] [DecidableLT K] (a b : XR K) : Decidable (flt a b) := by
  cases a <;> cases b <;> unfold flt <;> infer_instance

/-- Float negation. -/
def neg [Neg K] : XR K → XR K
  | nan => nan
  | ninf => pinf
  | pinf => ninf
  | fin x => fin (-x)

/-- Apply a function to the finite values only. -/
def map {L : Type*} (f : K → L) : XR K → XR L
  | nan => nan
  | ninf => ninf
  | pinf => pinf
  | fin x => fin (f x)

@[simp] theorem isFinite_fin (x : K) : (fin x).isFinite = true := rfl
@[simp] theorem isFinite_ninf : (ninf : XR K).isFinite = false := rfl
@[simp] theorem isFinite_pinf : (pinf : XR K).isFinite = false := rfl
@[simp] theorem isFinite_nan : (nan : XR K).isFinite = false := rfl

theorem isFinite_iff {a : XR K} : a.isFinite = true ↔ ∃ x, a = fin x := by
  cases a <;> simp

theorem flt_iff_lt [LinearOrder K] {a b : XR K} (ha : a ≠ nan) (hb : b ≠ nan) :
    flt a b ↔ a < b := by
  rw [← not_le]
  cases a <;> cases b <;> simp_all [flt]

theorem fle_iff_le [LinearOrder K] {a b : XR K} (ha : a ≠ nan) (hb : b ≠ nan) :
    fle a b ↔ a ≤ b := by
  cases a <;> cases b <;> simp_all [fle]

end XR

/-- `metric` strings accepted by `io.check_valid_metric_parameter`
(`/repo/hub_toolbox/io.py` lines 126-131): anything else raises `ValueError`. -/
def checkValidMetric (metric : String) : Py Unit :=
  if metric ≠ "distance" ∧ metric ≠ "similarity" then .error .valueError else .ok ()

end HubToolbox
