import Verif.InOut.TextModel
import Verif.Dist.Model

/-!
# Model of `load_dexter`

`/repo/hub_toolbox/io.py` lines 22-62, from the text of the two files to the three results. The conversion of a word to a number by `np.loadtxt` is a
parameter (`float`). Simplifications as in `Verif/InOut/TextModel.lean`; the warning about empty files is not modelled.
-/

set_option autoImplicit false

namespace HubToolbox.InOut

/-- The words of the lines of a file for `np.loadtxt`: comments are cut off, lines without words skipped. -/
def loadtxtWords (text : List Char) : List (List (List Char)) :=
  ((readlines text).map (fun l => split (l.takeWhile (· != '#')))).filter (fun ws => !ws.isEmpty)

/-- The result of `np.loadtxt` (`ndmin=0`): dimensions of length one are dropped, i.e. a single number becomes an array without dimensions, which is one of
the arrays which are not vectors. Rows must have the same number of words. -/
def squeeze {α : Type} : List (List α) → Py (PyVec α)
  | [] => .ok (.vec 0 Fin.elim0)
  | [r] => if r.length = 1 then .ok .otherDim else .ok (.vec r.length r.get)
  | r :: rest =>
    if rest.all (fun s => s.length = r.length) then
      if r.length = 1 then .ok (.vec (r :: rest).flatten.length (r :: rest).flatten.get) else .ok .otherDim
    else .error .valueError

/-- `np.loadtxt(classes_file)` (`/repo/hub_toolbox/io.py` line 44). -/
def loadtxt {α : Type} (float : List Char → Py α) (text : List Char) : Py (PyVec α) := do
  let rows ← (loadtxtWords text).mapM (fun ws => ws.mapM float)
  squeeze rows

/-- `load_dexter` (`/repo/hub_toolbox/io.py` lines 22-62) for the text of the labels file and of the data file; `n = 300` and `dim = 20000` in the code. -/
noncomputable def loadDexter (float : List Char → Py ℝ) (n dim : ℕ) (labels data : List Char) : Py (PyMat (XR ℝ) × PyVec ℝ × PyMat ℝ) := do
  let classes ← loadtxt float labels
  let V ← loadText n dim data
  let X : Fin n → Fin dim → ℝ := fun i f => V i f
  pure (.mat false n n (Dist.cosineDistance X), classes, .mat false n dim X)

end HubToolbox.InOut
