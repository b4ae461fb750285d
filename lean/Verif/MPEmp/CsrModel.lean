import Verif.MPEmp.Model

/-!
# `_mutual_proximity_empiric_sparse` on csr matrices as they are stored

`Verif/MPEmp/Model.lean` describes the function for matrices with sorted indices and without explicit zeros, given by their content. Here a
matrix is given by the stored entries of its rows, in the order in which they are stored. Simplification: no column is stored
twice in a row.
-/

set_option autoImplicit false

namespace HubToolbox.MPEmp

variable {K : Type} [Field K] [LinearOrder K]

/-- A csr matrix: columns and values of the entries of each row (`indices`, `data`), in the order in which they are stored. -/
abbrev Rows (n : ℕ) (K : Type) := Fin n → List (Fin n × K)

/-- `S[i, j]`. -/
def content {n : ℕ} (rows : Rows n K) (i j : Fin n) : K := (((rows i).filter (fun e => e.1 = j)).map (fun e => e.2)).sum

/-- `S.indptr[i]`. -/
def indptr {n : ℕ} (rows : Rows n K) (i : ℕ) : ℕ := ((List.ofFn (fun i => (rows i).length)).take i).sum

/-- `np.searchsorted(l, key)`: numpy's binary search between the positions `lo` and `hi`. -/
def bisect (l : List ℕ) (key : ℕ) : ℕ → ℕ → ℕ → ℕ
  | 0, lo, _ => lo
  | fuel + 1, lo, hi =>
    if lo < hi then
      let mid := lo + (hi - lo) / 2
      if l.getD mid 0 < key then bisect l key fuel (mid + 1) hi else bisect l key fuel lo mid
    else lo

/-- `np.searchsorted(l, key)`. -/
def searchsorted (l : List ℕ) (key : ℕ) : ℕ := bisect l key (l.length + 1) 0 l.length

/-- Columns of the stored entries of a row. -/
def cols {n : ℕ} (rows : Rows n K) (i : Fin n) : List ℕ := (rows i).map (fun e => e.1.val)

/-- `data_idx` (`/repo/hub_toolbox/global_scaling.py` line 326). -/
def dataIdx {n : ℕ} (rows : Rows n K) (i j : Fin n) : ℕ := indptr rows i + searchsorted (cols rows i) j

/-- The value computed by `_mpes_sec_dist` (`/repo/hub_toolbox/global_scaling.py` lines 312-345): `nnz` counts stored entries. The sum of two csr
matrices contains no explicit zeros. -/
def secDistCsr {n : ℕ} (minNnz : ℤ) (rows : Rows n K) (i j : Fin n) : XR K :=
  if ((rows i).length : ℤ) ≤ minNnz ∨ ((rows j).length : ℤ) ≤ minNnz then .nan
  else .fin (1 - (nnz (fun x => suppress (content rows i j) (content rows i) x + suppress (content rows i j) (content rows j) x) : K) / n)

/-- The matrix with the indices of `rows` and the given data (`/repo/hub_toolbox/global_scaling.py` lines 387-388). -/
def withData {n : ℕ} (rows : Rows n K) (data : ℕ → XR K) (i j : Fin n) : XR K :=
  if j.val ∈ cols rows i then data (indptr rows i + (cols rows i).idxOf j.val) else .fin 0

/-- `_mutual_proximity_empiric_sparse` (`/repo/hub_toolbox/global_scaling.py` lines 347-412). `order` is the order in which the workers store
their results. A result which belongs behind the end of the shared array raises an `IndexError`. -/
def sparseCsr {n : ℕ} (order : List (Fin n × Fin n)) (minNnz : ℤ) (rows : Rows n K) : Py (Fin n → Fin n → XR K) :=
  if order.all (fun p => decide (dataIdx rows p.1 p.2 < indptr rows n)) then
    let data := Sched.exec (fun _ : ℕ => (.fin 0 : XR K)) (order.map (fun p => (dataIdx rows p.1 p.2, secDistCsr minNnz rows p.1 p.2)))
    let M := withData rows data
    let sym : Fin n → Fin n → XR K := fun i j => XR.add (M i j) (M j i)
    let kept : Fin n → Fin n → XR K := fun i j => if ((rows i).length : ℤ) ≤ minNnz then .fin (content rows i j) else sym i j
    .ok (Np.fillDiagonal kept (.fin 1))
  else .error .indexError

end HubToolbox.MPEmp
