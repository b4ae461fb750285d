import Verif.Np
import Verif.Io
import Verif.XRArith
import Mathlib.Data.Rat.Floor
import Mathlib.Algebra.Order.Floor.Semiring

/-!
# Model of `hub_toolbox/io.py`

Splitting matrices by the free memory, random sparse matrices, saving and loading of csr matrices, the reader of the example data, and
the argument checks. Reading text is modelled in `Verif/InOut/TextModel.lean`; here `/proc/meminfo` is a list of labelled numbers, the example data a
list of lines of pairs, a `.npz` file the arrays it was written from. Numbers are exact.
-/

set_option autoImplicit false

namespace HubToolbox.InOut

/-! ### Free memory -/

/-- Lines of `/proc/meminfo`: label and value in kB. -/
abbrev MemInfo := List (String × ℕ)

/-- Units of `FreeMemLinux`. Any other unit raises a plain `Exception`, which is not modelled. -/
inductive MemUnit
  | kB
  | k
  | MB
  | GB
  | percent

/-- The attributes of `FreeMemLinux` (`/repo/hub_toolbox/io.py` lines 210-225). -/
structure FreeMem where
  tot : ℕ
  free : ℕ
  buff : ℕ
  cached : ℕ
  shared : ℕ
  swapt : ℕ
  swapf : ℕ
  convert : ℚ

/-- `int(lines[i].split()[1])`. -/
def line (lines : MemInfo) (i : ℕ) : Py ℕ :=
  match lines[i]? with
  | some l => .ok l.2
  | none => .error .indexError

/-- `_factor` (`/repo/hub_toolbox/io.py` lines 227-240). -/
def factor (tot : ℕ) : MemUnit → Py ℚ
  | .kB => .ok 1
  | .k => .ok 1024
  | .MB => .ok (1 / 1024)
  | .GB => .ok (1 / 1024 / 1024)
  | .percent => if tot = 0 then .error .zeroDivisionError else .ok (1 / tot * 100)

/-- `FreeMemLinux.__init__` (`/repo/hub_toolbox/io.py` lines 210-225). -/
def FreeMem.read (lines : MemInfo) (unit : MemUnit) : Py FreeMem := do
  let tot ← line lines 0
  let free ← line lines 1
  let buff ← line lines 2
  let cached ← line lines 3
  let shared ← line lines 20
  let swapt ← line lines 14
  let swapf ← line lines 15
  let convert ← factor tot unit
  pure ⟨tot, free, buff, cached, shared, swapt, swapf, convert⟩

/-- `total` (`/repo/hub_toolbox/io.py` lines 242-244). -/
def FreeMem.total (m : FreeMem) : ℚ := m.convert * m.tot

/-- `used` (`/repo/hub_toolbox/io.py` lines 246-248). -/
def FreeMem.used (m : FreeMem) : ℚ := m.convert * ((m.tot : ℚ) - m.free)

/-- `used_real` (`/repo/hub_toolbox/io.py` lines 250-253). -/
def FreeMem.usedReal (m : FreeMem) : ℚ := m.convert * ((m.tot : ℚ) - m.free - m.buff - m.cached)

/-- `shared` (`/repo/hub_toolbox/io.py` lines 255-257). -/
def FreeMem.sharedMem (m : FreeMem) : ℚ := m.convert * ((m.tot : ℚ) - m.free)

/-- `buffers` (`/repo/hub_toolbox/io.py` lines 259-261). -/
def FreeMem.buffers (m : FreeMem) : ℚ := m.convert * m.buff

/-- `cached` (`/repo/hub_toolbox/io.py` lines 263-265). -/
def FreeMem.cachedMem (m : FreeMem) : ℚ := m.convert * m.cached

/-- `user_free` (`/repo/hub_toolbox/io.py` lines 267-270). -/
def FreeMem.userFree (m : FreeMem) : ℚ := m.convert * ((m.free : ℚ) + m.buff + m.cached)

/-- `swap` (`/repo/hub_toolbox/io.py` lines 272-274). -/
def FreeMem.swap (m : FreeMem) : ℚ := m.convert * m.swapt

/-- `swap_free` (`/repo/hub_toolbox/io.py` lines 276-278). -/
def FreeMem.swapFree (m : FreeMem) : ℚ := m.convert * m.swapf

/-- `swap_used` (`/repo/hub_toolbox/io.py` lines 222, 280-282). -/
def FreeMem.swapUsed (m : FreeMem) : ℚ := m.convert * ((m.swapt : ℚ) - m.swapf)

/-- `matrix_split` (`/repo/hub_toolbox/io.py` lines 133-165). -/
def matrixSplit (lines : MemInfo) (rows cols elemSize nrMatrices : ℕ) : Py (ℕ × ℕ) := do
  let m ← FreeMem.read lines .k
  if cols = 0 then throw .zeroDivisionError
  if elemSize = 0 then throw .zeroDivisionError
  let maxRows := ⌊m.userFree / cols / elemSize⌋₊
  if nrMatrices = 0 then throw .zeroDivisionError
  let nrRows := ⌊(maxRows : ℚ) / nrMatrices⌋₊
  if nrRows = 0 then throw .zeroDivisionError
  pure (⌈(rows : ℚ) / nrRows⌉₊, nrRows)

/-! ### Random sparse matrices -/

/-- What `sparse.rand(n, n, density, 'csr')` draws: the cells, and their values in `[0, 1)`. -/
structure Draw (K : Type) [Field K] [LinearOrder K] (n : ℕ) where
  cells : Finset (Fin n × Fin n)
  val : Fin n → Fin n → K
  nonneg : ∀ i j, 0 ≤ val i j
  lt_one : ∀ i j, val i j < 1

section
variable {K : Type} [Field K] [LinearOrder K]

/-- The dense content of the drawn matrix. -/
def Draw.at {n : ℕ} (R : Draw K n) (i j : Fin n) : K := if (i, j) ∈ R.cells then R.val i j else 0

/-- `S.max()` of a non-empty matrix: the largest entry, stored or not. -/
def maxEntry {n : ℕ} (h : 0 < n) (S : Fin n → Fin n → K) : K :=
  (Finset.univ : Finset (Fin n × Fin n)).sup' ⟨(⟨0, h⟩, ⟨0, h⟩), Finset.mem_univ _⟩ (fun p => S p.1 p.2)

/-- `random_sparse_matrix` (`/repo/hub_toolbox/io.py` lines 167-191). `S /= x` multiplies the stored entries by `1.0 / x`; `S.max()`
of an empty matrix raises `ValueError`. -/
def randomSparse {n : ℕ} (R : Draw K n) : Py (Fin n → Fin n → XR K) :=
  if h : 0 < n then
    let S : Fin n → Fin n → K := fun i j => R.at i j + R.at j i
    let recip : XR K := XR.div (.fin 1) (.fin (maxEntry h S))
    let S1 : Fin n → Fin n → XR K := fun i j =>
      if (i, j) ∈ R.cells ∨ (j, i) ∈ R.cells then XR.mul (.fin (S i j)) recip else .fin 0
    let S2 : Fin n → Fin n → XR K := fun i j => if i = j then XR.sub (S1 i j) (S1 i i) else S1 i j
    .ok fun i j => if i = j then XR.add (S2 i j) (.fin 1) else S2 i j
  else .error .valueError

/-! ### csr matrices in files -/

/-- A scipy `csr_matrix`, or the four arrays in a file. -/
structure Csr (K : Type) where
  n : ℕ
  m : ℕ
  data : List K
  indices : List ℕ
  indptr : List ℕ

/-- Invariant of the format. The arrays `data` and `indices` may be longer than needed. -/
structure Csr.Valid {K : Type} (M : Csr K) : Prop where
  indptr_length : M.indptr.length = M.n + 1
  indptr_zero : M.indptr[0]? = some 0
  mono : ∀ (i j : ℕ) (hi : i ≤ j) (hj : j < M.indptr.length), M.indptr[i] ≤ M.indptr[j]
  last_le : ∀ p ∈ M.indptr, p ≤ M.data.length
  indices_length : M.indices.length = M.data.length
  cols : ∀ c ∈ M.indices, c < M.m

/-- The entry in row `i` and column `j`: the sum of the stored values. -/
def Csr.entry {K : Type} [Zero K] [Add K] (M : Csr K) (i j : ℕ) : K :=
  (((List.range (M.indptr.getD (i + 1) 0)).filter (fun p => decide (M.indptr.getD i 0 ≤ p) && decide (M.indices.getD p 0 = j))).map
    (fun p => M.data.getD p 0)).sum

/-- `csr_matrix((data, indices, indptr), shape)`: `check_format` raises `ValueError` for arrays which do not fit, and `prune` drops what is
not needed. -/
def Csr.ofArrays {K : Type} (A : Csr K) : Py (Csr K) :=
  if A.indptr.length ≠ A.n + 1 then .error .valueError
  else if A.indptr[0]? ≠ some 0 then .error .valueError
  else if A.indices.length ≠ A.data.length then .error .valueError
  else if A.indptr.getLastD 0 > A.indices.length then .error .valueError
  else .ok { A with data := A.data.take (A.indptr.getLastD 0), indices := A.indices.take (A.indptr.getLastD 0) }

/-- The `.npz` files by name. -/
abbrev Files (K : Type) := String → Option (Csr K)

/-- What can go wrong when loading. -/
inductive LoadErr
  | fileNotFound
  | py (e : PyErr)

/-- `np.savez` appends `.npz` to names which do not end with it. -/
def npzName (file : String) : String := if ".npz".toList <:+ file.toList then file else file ++ ".npz"

/-- `save_csr_matrix` (`/repo/hub_toolbox/io.py` lines 193-196): the files afterwards and the returned name. -/
def save {K : Type} (fs : Files K) (file : String) (M : Csr K) : Files K × String :=
  (Function.update fs (npzName file) (some M), file)

/-- `load_csr_matrix` (`/repo/hub_toolbox/io.py` lines 198-201). -/
def load {K : Type} (fs : Files K) (file : String) : Except LoadErr (Csr K) :=
  match fs file with
  | none => .error .fileNotFound
  | some A =>
    match Csr.ofArrays A with
    | .ok M => .ok M
    | .error e => .error (.py e)

end

/-! ### Example data -/

/-- `vectors[row][int(col)-1] = int(val)` for the words of a line (`/repo/hub_toolbox/io.py` lines 54-56). -/
def readLine {n dim : ℕ} (row : ℕ) (V : Fin n → Fin dim → ℤ) (words : List (ℤ × ℤ)) : Py (Fin n → Fin dim → ℤ) :=
  words.foldlM (fun (V : Fin n → Fin dim → ℤ) (w : ℤ × ℤ) =>
    if h : row < n then
      match Np.wrap dim (w.1 - 1) with
      | none => .error .indexError
      | some c => .ok (fun i j => if i = ⟨row, h⟩ ∧ j = c then w.2 else V i j)
    else .error .indexError) V

/-- The loop of `load_dexter` (`/repo/hub_toolbox/io.py` lines 45-57) over the lines `data`; `n = 300` and `dim = 20000` in the code. -/
def readLines {n dim : ℕ} : ℕ → List (List (ℤ × ℤ)) → (Fin n → Fin dim → ℤ) → Py (Fin n → Fin dim → ℤ)
  | _, [], V => .ok V
  | row, words :: rest, V => readLine row V words >>= readLines (row + 1) rest

/-- `vectors` of `load_dexter` (`/repo/hub_toolbox/io.py` lines 45-57). -/
def readVectors (n dim : ℕ) (data : List (List (ℤ × ℤ))) : Py (Fin n → Fin dim → ℤ) :=
  readLines 0 data (fun _ _ => 0)

/-! ### Argument checks -/

/-- `check_distance_matrix_shape_fits_vectors` (`/repo/hub_toolbox/io.py` lines 82-89). -/
def checkFitsVectors {α β : Type} (D : PyMat α) (vectors : PyMat β) : Py Unit := do
  let (_, ⟨n, _, _⟩) ← D.check2D
  let (_, ⟨n', _, _⟩) ← vectors.check2D
  if n ≠ n' then throw .typeError

/-- `check_is_nD_array(arr, 1)` (`/repo/hub_toolbox/io.py` lines 64-73), the size. -/
def check1D {β : Type} : PyVec β → Py ℕ
  | .noArray => .error .typeError
  | .otherDim => .error .typeError
  | .vec n _ => .ok n

/-- `check_distance_matrix_shape_fits_labels` (`/repo/hub_toolbox/io.py` lines 91-98) and `check_vector_matrix_shape_fits_labels`
(lines 100-107), which do the same. -/
def checkFitsLabels {α β : Type} (D : PyMat α) (classes : PyVec β) : Py Unit := do
  let (_, ⟨n, _, _⟩) ← D.check2D
  let l ← check1D classes
  if l ≠ n then throw .typeError

/-- `check_sample_shape_fits` (`/repo/hub_toolbox/io.py` lines 109-124). A sparse `idx` is one of the objects which are not 1-D arrays. -/
def checkSampleFits {α β : Type} (D : PyMat α) (idx : PyVec β) : Py Unit := do
  match D with
  | .mat true _ _ _ => throw .typeError
  | _ => pure ()
  let (_, ⟨n, m, _⟩) ← D.check2D
  let l ← check1D idx
  if m > n then throw .valueError
  if m ≠ l then throw .typeError

end HubToolbox.InOut
