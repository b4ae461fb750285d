import Verif.Io
import Verif.NpSort
import Mathlib.Algebra.Field.Basic

/-!
# Model of `hub_toolbox/goodman_kruskal.py`

Labels are of any linearly ordered type (`np.unique` sorts them). Matrices are float arrays; sparse matrices
are given by their content and store no explicit zeros. Counts are integers (python: floats holding integers).
-/

set_option autoImplicit false

namespace HubToolbox

/-- IEEE `a == b`. -/
def XR.feq {K : Type} (a b : XR K) : Prop := a ≠ .nan ∧ a = b

instance {K : Type} [DecidableEq K] (a b : XR K) : Decidable (XR.feq a b) := by
  unfold XR.feq; infer_instance

namespace GK

variable {K : Type} [LinearOrder K] {L : Type} [LinearOrder L]

/-- Index pairs of an `n × n` array in row-major order. -/
def cells (n : ℕ) : List (Fin n × Fin n) := List.finRange n ×ˢ List.finRange n

/-- `D_other = D[np.triu(other, 1)]` (`/repo/hub_toolbox/goodman_kruskal.py` lines 76-78). -/
def dOther {n : ℕ} (D : Fin n → Fin n → XR K) (cls : Fin n → L) : List (XR K) :=
  ((cells n).filter (fun p => decide (p.1 < p.2) && decide (cls p.1 ≠ cls p.2))).map (fun p => D p.1 p.2)

/-- `D_self = D[np.triu(selD, 1).T].T` (`/repo/hub_toolbox/goodman_kruskal.py` lines 81-86): the mask is
transposed, so entries below the diagonal are read. -/
def dSelf {n : ℕ} (D : Fin n → Fin n → XR K) (cls : Fin n → L) (c : L) : List (XR K) :=
  ((cells n).filter (fun p => decide (p.2 < p.1) && (decide (cls p.2 = c) && decide (cls p.1 = c)))).map
    (fun p => D p.1 p.2)

/-- Number of quadruples with equal distance (`/repo/hub_toolbox/goodman_kruskal.py` lines 98-111, 292-316). -/
def equidistant (self other : List (XR K)) : ℤ :=
  let full := self ++ other
  let sdf := Np.sort full
  let equiDist := ((sdf.tail.zip sdf).filter (fun p => decide (XR.feq p.1 p.2))).map Prod.fst
  (Np.unique equiDist).foldl (fun (acc : ℤ) (dist : XR K) =>
    let equiArg := (List.finRange full.length).filter (fun i => decide (XR.feq (full.get i) dist))
    let selfEqui := equiArg.countP (fun i => decide (i.val < self.length))
    let otherEqui := (equiArg.length : ℤ) - selfEqui
    acc + selfEqui * otherEqui) 0

/-- Scan over the values in descending order, accumulating `cc`
(`/repo/hub_toolbox/goodman_kruskal.py` lines 95-96, 113-120, 283, 324-333). -/
def concordant (self other : List (XR K)) (ccsize : ℤ) : ℤ :=
  (((Np.argsortStable (self ++ other)).reverse).foldl (fun (st : ℤ × ℤ) i =>
    if i.val < self.length then (st.1 + st.2, st.2) else (st.1, st.2 - 1)) (0, ccsize)).1

/-- Final value (`/repo/hub_toolbox/goodman_kruskal.py` lines 128-137, 354-365). -/
def gamma [Field K] (metric : String) (Qc Qd : ℤ) : K :=
  if Qc + Qd = 0 then 0
  else if metric = "similarity" then ((Qc - Qd : ℤ) : K) / ((Qc + Qd : ℤ) : K)
  else ((Qd - Qc : ℤ) : K) / ((Qc + Qd : ℤ) : K)

/-- Loop over the classes (`/repo/hub_toolbox/goodman_kruskal.py` lines 80-126). -/
def denseCounts {n : ℕ} (D : Fin n → Fin n → XR K) (cls : Fin n → L) : ℤ × ℤ :=
  let other := dOther D cls
  (Np.unique (List.ofFn cls)).foldl (fun (Q : ℤ × ℤ) (c : L) =>
    if (List.finRange n).countP (fun i => decide (cls i = c)) > 1 then
      let self := dSelf D cls c
      let neq := equidistant self other
      let cc := concordant self other other.length
      let dc := (self.length : ℤ) * other.length - cc - neq
      (Q.1 + cc, Q.2 + dc)
    else Q) (0, 0)

/-- Some class has two members (`/repo/hub_toolbox/goodman_kruskal.py` lines 81-82). -/
def hasPair {n : ℕ} (cls : Fin n → L) : Bool :=
  (Np.unique (List.ofFn cls)).any (fun c => decide ((List.finRange n).countP (fun i => decide (cls i = c)) > 1))

/-- `goodman_kruskal_index` (`/repo/hub_toolbox/goodman_kruskal.py` lines 19-137). The documentation asks for a dense
matrix, but nothing checks it. Indexing a `csr_matrix` by a mask (lines 78, 86) gives a `1 × N` `np.matrix` and
`np.append` (line 91) refuses to concatenate a transposed one, which flattens to `1 × N`, with a one-dimensional array
(`ValueError`); without same-class pairs line 91 is never reached and the value is 0. -/
def index [Field K] (D : PyMat (XR K)) (classes : PyVec L) (metric : String) : Py K := do
  let (sp, ⟨_, a, cls⟩) ← checkMatrixLabels D classes
  checkValidMetric metric
  if sp then
    if hasPair cls then throw .valueError else pure 0
  else
    let Q := denseCounts a cls
    pure (gamma metric Q.1 Q.2)

/-- Quadruple loops of `_naive_goodman_kruskal` (`/repo/hub_toolbox/goodman_kruskal.py` lines 381-398). -/
def naiveCounts {n : ℕ} (D : Fin n → Fin n → XR K) (cls : Fin n → L) : ℤ × ℤ :=
  (List.finRange n).foldl (fun (Q : ℤ × ℤ) (i : Fin n) =>
    ((List.finRange n).drop (i.val + 1)).foldl (fun (Q : ℤ × ℤ) (j : Fin n) =>
      if cls i = cls j then
        (List.finRange n).foldl (fun (Q : ℤ × ℤ) (k : Fin n) =>
          ((List.finRange n).drop (k.val + 1)).foldl (fun (Q : ℤ × ℤ) (l : Fin n) =>
            if cls l ≠ cls k then
              if XR.flt (D i j) (D k l) then (Q.1 + 1, Q.2)
              else if XR.flt (D k l) (D i j) then (Q.1, Q.2 + 1)
              else Q
            else Q) Q) Q
      else Q) Q) (0, 0)

/-- `_naive_goodman_kruskal` (`/repo/hub_toolbox/goodman_kruskal.py` lines 370-404). -/
def naive [Field K] (D : PyMat (XR K)) (classes : PyVec L) (metric : String) : Py K := do
  let (_, ⟨_, a, cls⟩) ← checkMatrixLabels D classes
  checkValidMetric metric
  let Q := naiveCounts a cls
  pure (if Q.1 + Q.2 = 0 then 0
    else if metric = "similarity" then ((Q.2 - Q.1 : ℤ) : K) / ((Q.1 + Q.2 : ℤ) : K)
    else ((Q.1 - Q.2 : ℤ) : K) / ((Q.1 + Q.2 : ℤ) : K))

/-- Pairs `(i, j)`, `j > i`, with different labels (`/repo/hub_toolbox/goodman_kruskal.py` lines 227-234). -/
def otherPairs {n : ℕ} (cls : Fin n → L) : List (Fin n × Fin n) :=
  (cells n).filter (fun p => decide (p.1 < p.2) && decide (cls p.1 ≠ cls p.2))

/-- Pairs `(i, j)`, `j > i`, within class `c` (`/repo/hub_toolbox/goodman_kruskal.py` lines 244-264). -/
def selfPairs {n : ℕ} (cls : Fin n → L) (c : L) : List (Fin n × Fin n) :=
  (cells n).filter (fun p => decide (p.1 < p.2) && (decide (cls p.1 = c) && decide (cls p.2 = c)))

/-- Stored values among the given cells. -/
def stored [Zero K] {n : ℕ} (S : Fin n → Fin n → K) (ps : List (Fin n × Fin n)) : List (XR K) :=
  (ps.filter (fun p => decide (S p.1 p.2 ≠ 0))).map (fun p => .fin (S p.1 p.2))

/-- Class loop of `sparse_goodman_kruskal_index` (`/repo/hub_toolbox/goodman_kruskal.py` lines 216-345).
`heuristic` is `heuristic == 'equal_sim'`. -/
def sparseCounts [Zero K] {n : ℕ} (S : Fin n → Fin n → K) (cls : Fin n → L) (zeroMv heuristic : Bool) :
    ℤ × ℤ :=
  let other := stored S (otherPairs cls)
  let nOtherZeros : ℤ := (otherPairs cls).length - other.length
  (Np.unique (List.ofFn cls)).foldl (fun (Q : ℤ × ℤ) (c : L) =>
    if (List.finRange n).countP (fun i => decide (cls i = c)) > 1 then
      let self := stored S (selfPairs cls c)
      let nSelfZeros : ℤ := (selfPairs cls c).length - self.length
      let selfSize : ℤ := self.length + nSelfZeros
      let otherSize : ℤ := other.length + nOtherZeros
      let nZero := if zeroMv then 0 else nSelfZeros * nOtherZeros
      let neq := if heuristic then 0 else equidistant self other
      let cc := concordant self other (if zeroMv then other.length else otherSize)
      let dc := if zeroMv then (self.length : ℤ) * other.length - cc - neq
        else selfSize * otherSize - cc - neq - nZero
      (Q.1 + cc, Q.2 + dc)
    else Q) (0, 0)

/-- `sparse_goodman_kruskal_index` (`/repo/hub_toolbox/goodman_kruskal.py` lines 139-368) for an `n × m` sparse
matrix. Without points the loop of lines 227-231 does not run and `del cur_other` (line 235) raises. The last
row's empty slice (`i = n-1`) is a `1 × 0` sparse matrix, which current scipy versions accept. -/
def sparseIndex [Field K] {n m : ℕ} (S : Fin n → Fin m → K) (classes : PyVec L) (metric : String)
    (zeroMv heuristic : Bool) : Py K := do
  let (_, ⟨_, a, cls⟩) ← checkMatrixLabels (.mat true n m S) classes
  checkValidMetric metric
  if n = 0 then throw .unboundLocalError
  let Q := sparseCounts a cls zeroMv heuristic
  pure (gamma metric Q.1 Q.2)

end GK
end HubToolbox
