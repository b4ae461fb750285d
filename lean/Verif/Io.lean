import Verif.Np

/-!
# Argument checks of `hub_toolbox/io.py`
-/

set_option autoImplicit false

namespace HubToolbox

/-- A python object used as a vector argument. -/
inductive PyVec (α : Type)
  | noArray
  | otherDim
  | vec (n : ℕ) (v : Fin n → α)

/-- `check_distance_matrix_shape` and `check_distance_matrix_shape_fits_labels`
(`/repo/hub_toolbox/io.py` lines 65-82, 93-102): all failures are `TypeError`. -/
def checkMatrixLabels {α β : Type} (D : PyMat α) (classes : PyVec β) :
    Py (Bool × Σ n : ℕ, (Fin n → Fin n → α) × (Fin n → β)) :=
  match D, classes with
  | .mat sp n m a, .vec l v =>
    if h : n = m then
      if h' : l = n then .ok (sp, ⟨n, fun i j => a i (j.cast h), fun i => v (i.cast h'.symm)⟩)
      else .error .typeError
    else .error .typeError
  | _, _ => .error .typeError

end HubToolbox
