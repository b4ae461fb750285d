import Verif.Io
import Verif.NpSort
import Mathlib.Algebra.Field.Basic

/-!
# Model of `hub_toolbox/knn_classification.py`

Labels are integers (`target.astype(int)`). `np.argsort` (unstable quicksort) and `np.argpartition` are oracles,
`np.random.permutation` any permutation. Progress messages and warnings are not modelled.
-/

set_option autoImplicit false

namespace HubToolbox.Knn

variable {K : Type}

/-- `np.argsort(v)` with the default (unstable) algorithm: some ascending order of the positions. -/
structure ArgSort (α : Type) [LinearOrder α] where
  run : ∀ {m : ℕ}, (Fin m → α) → List (Fin m)
  perm : ∀ {m : ℕ} (v : Fin m → α), (run v).Perm (List.finRange m)
  sorted : ∀ {m : ℕ} (v : Fin m → α), (run v).Pairwise (fun a b => v a ≤ v b)

/-- The contract is satisfiable. -/
def ArgSort.ofSort (α : Type) [LinearOrder α] : ArgSort α where
  run v := (List.finRange _).insertionSort (fun a b => v a ≤ v b)
  perm v := List.perm_insertionSort _ _
  sorted v := by
    have : IsTrans (Fin _) (fun a b => v a ≤ v b) := ⟨fun _ _ _ h h' => le_trans h h'⟩
    have : Std.Total (fun a b => v a ≤ v b) := ⟨fun a b => le_total (v a) (v b)⟩
    exact List.pairwise_insertionSort _ _

/-- The random number generator: `first i` is the permutation drawn when query `i` is handled, `again i j` the one
drawn when query `i` has no finite neighbour for the `j`-th value of `k`. -/
structure Rnd where
  first : ∀ {m : ℕ}, ℕ → List (Fin m) → List (Fin m)
  again : ∀ {m : ℕ}, ℕ → ℕ → List (Fin m) → List (Fin m)
  first_perm : ∀ {m : ℕ} (i : ℕ) (l : List (Fin m)), (first i l).Perm l
  again_perm : ∀ {m : ℕ} (i j : ℕ) (l : List (Fin m)), (again i j l).Perm l

/-- No shuffling. -/
def Rnd.id : Rnd := ⟨fun _ l => l, fun _ _ l => l, fun _ l => .refl l, fun _ _ l => .refl l⟩

/-- Parameter `k`. -/
inductive KArg
  | int (k : ℤ)
  /-- a list or a 1-D array -/
  | list (l : List ℤ)
  /-- an object of another type without attribute `size` -/
  | other

/-- `/repo/hub_toolbox/knn_classification.py` lines 128-138, 354-364. -/
def KArg.toList : KArg → Py (List ℤ)
  | .int k => .ok [k]
  | .list l => .ok l
  | .other => .error .attributeError

/-- `l[0:k]`. -/
def slice0 {α : Type} (k : ℤ) (l : List α) : List α :=
  if 0 ≤ k then l.take k.toNat else l.take ((l.length : ℤ) + k).toNat

/-- `d_self` (`/repo/hub_toolbox/knn_classification.py` lines 100-105, 325-330). -/
def dSelf (metric : String) : XR K := if metric = "distance" then .pinf else .ninf

/-- Class list `cl` (`/repo/hub_toolbox/knn_classification.py` lines 143, 366). -/
def labelsOf (l : List ℤ) : List ℤ := Np.unique l

/-- `classes`: labels replaced by their rank `0, 1, …` (`/repo/hub_toolbox/knn_classification.py` lines 152-155,
370-373). The python loop assigns to each label its position in `cl`. -/
def encode (cl : List ℤ) (t : ℤ) : ℕ := cl.idxOf t

/-- Dense candidate order (`/repo/hub_toolbox/knn_classification.py` lines 204-208, 408-412). `rp` is the shuffled
list of candidates. -/
def order [LinearOrder K] (srt : ArgSort (XR K)) {m : ℕ} (metric : String) (row : Fin m → XR K)
    (rp : List (Fin m)) : List (Fin m) :=
  let d2 : Fin rp.length → XR K := fun p => row (rp.get p)
  let d2idx := srt.run d2
  let d2idx := if metric = "distance" then d2idx else d2idx.reverse
  (d2idx.filter (fun p => decide (d2 p ≠ .nan))).map rp.get

/-- Stored columns of a sparse row: `row.nonzero()[1]`. -/
def storedCols [DecidableEq K] [Zero K] {m : ℕ} (row : Fin m → XR K) : List (Fin m) :=
  (List.finRange m).filter (fun x => decide (row x ≠ .fin 0))

/-- Partition positions for a sparse row with `nnz = l + 1` stored values
(`/repo/hub_toolbox/knn_classification.py` lines 192-198). `np.unique` (line 198) only sorts the positions and removes
duplicates, which makes no difference to the guarantee of `np.argpartition`. -/
def sparseKth (l : ℕ) (ks : List ℤ) : List (Fin (l + 1)) :=
  (ks.map (fun k => ((l + 1 : ℕ) : ℤ) - k - 1) ++ [((l + 1 : ℕ) : ℤ) - 2, ((l + 1 : ℕ) : ℤ) - 1]).map
    (fun t => ⟨(min (max t 0) (((l + 1 : ℕ) : ℤ) - 1)).toNat, by omega⟩)

/-- Sparse candidate order (`/repo/hub_toolbox/knn_classification.py` lines 187-202). For an empty row
`np.argpartition` returns an empty array. `rp` is the shuffled list of stored columns. -/
def sparseOrder [LinearOrder K] (o : ArgPart (XR K)) {m : ℕ} (row : Fin m → XR K) (ks : List ℤ) :
    List (Fin m) → List (Fin m)
  | [] => []
  | x :: t =>
    let rp := x :: t
    let d2 : Fin (t.length + 1) → XR K := fun p => row (rp.get p)
    let kth := sparseKth t.length ks
    let d2idx := o.run d2 (fun c : Fin kth.length => kth.get c)
    let l := ((List.finRange (t.length + 1)).map d2idx).filter (fun p => decide (d2 p ≠ .nan))
    (l.reverse.map rp.get).tail

/-- Loop over the values of `k` for one query (`/repo/hub_toolbox/knn_classification.py` lines 211-228, 415-430): the
neighbours used for each `k`. A reshuffled `idx` stays in use for the following values of `k`. -/
def nnLists {m : ℕ} (row : Fin m → XR K) (again : ℕ → List (Fin m) → List (Fin m)) :
    List ℤ → ℕ → List (Fin m) → List (List (Fin m))
  | [], _, _ => []
  | k :: ks, j, idx =>
    let fv := (slice0 k idx).map (fun x => (row x).isFinite)
    let none := fv.count true = 0
    let idx' := if none then again j idx else idx
    let fv' := if none then fv.map (fun _ => true) else fv
    (((slice0 k idx').zip fv').filter (fun p => p.2)).map Prod.fst :: nnLists row again ks (j + 1) idx'

/-- Vote of the neighbours' classes (`/repo/hub_toolbox/knn_classification.py` lines 229-246, 431-441). -/
def vote (unknown : ℕ) (nn : List ℕ) : ℕ :=
  let cs := Np.bincount nn 0
  if cs.length > 0 then
    let maxCs := (List.range cs.length).filter (fun c => decide (cs.getD c 0 = cs.foldr max 0))
    if maxCs.length > 1 then nn.headD 0 else maxCs.headD 0
  else unknown

/-- Results for one value of `k`. -/
structure KRes (K : Type) (n : ℕ) where
  acc : K
  corr : Fin n → ℕ
  cmat : ℕ → ℕ → ℕ

/-- Accumulation over the queries (`/repo/hub_toolbox/knn_classification.py` lines 167-171, 235-246) for one value
of `k`; `cnt` is python's `n`. -/
def tally [Field K] {n : ℕ} (cnt : ℕ) (queries : List (Fin n)) (seed pred : Fin n → ℕ) : KRes K n :=
  queries.foldl (fun (st : KRes K n) (i : Fin n) =>
    { acc := if pred i = seed i then st.acc + 1 / (cnt : K) else st.acc
      corr := if pred i = seed i then Function.update st.corr i 1 else st.corr
      cmat := fun a b => if a = seed i ∧ b = pred i then st.cmat a b + 1 else st.cmat a b })
    { acc := 0, corr := fun _ => 0, cmat := fun _ _ => 0 }

/-- Return value of `score`: `nClasses` is the width of the confusion matrices, `perK` has one entry per `k`. -/
structure Res (K : Type) (n : ℕ) where
  nClasses : ℕ
  perK : List (KRes K n)

/-- Training indices (`/repo/hub_toolbox/knn_classification.py` lines 121-123): `setdiff1d(arange(n), test)` with
`n = test_set_ind.size`. Test indices are non-negative and in range. -/
def trainSet {n : ℕ} (test : List (Fin n)) : List ℕ :=
  (List.range test.length).filter (fun x => decide (x ∉ test.map Fin.val))

/-- Indexing `row[train]`: `IndexError` if out of bounds. -/
def toFins (n : ℕ) (l : List ℕ) : Py (List (Fin n)) :=
  l.mapM (fun x => if h : x < n then .ok ⟨x, h⟩ else .error .indexError)

/-- Dense evaluation with given rows, candidates, and column classes
(`/repo/hub_toolbox/knn_classification.py` lines 140-150, 163-255). -/
def runDense [Field K] [LinearOrder K] (srt : ArgSort (XR K)) (rnd : Rnd) {n m : ℕ} (metric : String)
    (ks : List ℤ) (nClasses : ℕ) (queries : List (Fin n)) (row : Fin n → Fin m → XR K) (cand : List (Fin m))
    (seed : Fin n → ℕ) (colClass : Fin m → ℕ) : Res K n :=
  { nClasses := nClasses
    perK := (List.range ks.length).map (fun j =>
      tally queries.length queries seed (fun i =>
        vote (nClasses - 1)
          (((nnLists (row i) (rnd.again i.val) ks 0 (order srt metric (row i) (rnd.first i.val cand))).getD j []).map
            colClass))) }

/-- `score` on a dense `n × n` array without samples (`/repo/hub_toolbox/knn_classification.py` lines 114-255). -/
def scoreDense [Field K] [LinearOrder K] (srt : ArgSort (XR K)) (rnd : Rnd) {n : ℕ} (metric : String)
    (ks : List ℤ) (D : Fin n → Fin n → XR K) (target : Fin n → ℤ) (test : Option (List (Fin n))) :
    Py (Res K n) := do
  let cl := labelsOf (List.ofFn target)
  let classes := fun i => encode cl (target i)
  let row := fun i => Function.update (D i) i (dSelf metric)
  match test with
  | none =>
    pure (runDense srt rnd metric ks cl.length (List.finRange n) row (List.finRange n) classes classes)
  | some t =>
    let train ← if t.isEmpty then .ok [] else toFins n (trainSet t)
    pure (runDense srt rnd metric ks cl.length t row train classes classes)

/-- `score` on a dense `n × s` array of distances to samples
(`/repo/hub_toolbox/knn_classification.py` lines 156-162, 185-186, 203-208, 228). -/
def scoreSample [Field K] [LinearOrder K] (srt : ArgSort (XR K)) (rnd : Rnd) {n s : ℕ} (metric : String)
    (ks : List ℤ) (D : Fin n → Fin s → XR K) (target : Fin n → ℤ) (idx : Fin s → Fin n) : Res K n :=
  let cl := labelsOf (List.ofFn target)
  let classes := fun i => encode cl (target i)
  let row := fun i j => if i = idx j then dSelf metric else D i j
  runDense srt rnd metric ks cl.length (List.finRange n) row (List.finRange s) classes (fun j => classes (idx j))

/-- `score` on a sparse matrix (`/repo/hub_toolbox/knn_classification.py` lines 144-147, 173-174, 187-202, 213-216,
232-233). Parameter `metric` is not used for sparse matrices. -/
def scoreSparse [Field K] [LinearOrder K] (o : ArgPart (XR K)) (rnd : Rnd) {n : ℕ}
    (ks : List ℤ) (D : Fin n → Fin n → XR K) (target : Fin n → ℤ) (queries : List (Fin n)) :
    Py (Res K n) := do
  if n = 0 then throw .valueError
  let cl := labelsOf (List.ofFn target)
  let classes := fun i => encode cl (target i)
  pure
    { nClasses := cl.length + 2
      perK := (List.range ks.length).map (fun j =>
        tally queries.length queries classes (fun i =>
          vote cl.length
            (((nnLists (D i) (rnd.again i.val) ks 0
              (sparseOrder o (D i) ks (rnd.first i.val (storedCols (D i))))).getD j []).map classes))) }

/-- `score` (`/repo/hub_toolbox/knn_classification.py` lines 25-255) without `sample_idx`. For a sparse matrix the
training set of a held-out evaluation is computed but not used. Negative test indices are not modelled. -/
def score [Field K] [LinearOrder K] (srt : ArgSort (XR K)) (o : ArgPart (XR K)) (rnd : Rnd) (D : PyMat (XR K))
    (target : PyVec ℤ) (k : KArg) (metric : String) (test : Option (List ℕ)) :
    Py (Σ n, Res K n) := do
  let (sp, ⟨n, a, t⟩) ← checkMatrixLabels D target
  checkValidMetric metric
  let ks ← k.toList
  match test with
  | none =>
    let r ← if sp then scoreSparse o rnd ks a t (List.finRange n) else scoreDense srt rnd metric ks a t none
    pure ⟨n, r⟩
  | some T =>
    let T ← toFins n T
    let r ← if sp then scoreSparse o rnd ks a t T else scoreDense srt rnd metric ks a t (some T)
    pure ⟨n, r⟩

/-- Return value of `predict`. -/
structure PredRes (n c : ℕ) where
  yPred : ℕ → Fin n → Fin c → ℕ
  cmat : ℕ → Fin c → ℕ → ℕ → ℕ

/-- `predict` (`/repo/hub_toolbox/knn_classification.py` lines 257-449) without `sample_idx`, for a target with one
row of `c` labels per point. Sparse rows are made dense (line 392), so a sparse matrix is treated like its content. With `test_ind`
line 347 reads `test_set_ind` before its assignment. `np.max` of an empty vote raises (line 432). -/
def predict [LinearOrder K] (srt : ArgSort (XR K)) (rnd : Rnd) {n m c : ℕ} (D : Fin n → Fin m → XR K)
    (target : Fin n → Fin c → ℤ) (k : KArg) (metric : String) (test : Option (List (Fin n))) :
    Py (PredRes n c) := do
  if h : n = m then
    checkValidMetric metric
    if test.isSome then throw .unboundLocalError
    let ks ← k.toList
    let cl := labelsOf (List.flatMap (fun i => List.ofFn (target i)) (List.finRange n))
    let classes := fun i l => encode cl (target i l)
    let nn : Fin n → List (List (Fin n)) := fun i =>
      let row : Fin n → XR K := Function.update (fun j => D i (j.cast h)) i (dSelf metric)
      nnLists row (rnd.again i.val) ks 0 (order srt metric row (rnd.first i.val (List.finRange n)))
    if 0 < c ∧ (List.finRange n).any (fun i => (nn i).any List.isEmpty) then throw .valueError
    let p : ℕ → Fin n → Fin c → ℕ := fun j i l => vote 0 (((nn i).getD j []).map (fun x => classes x l))
    pure
      { yPred := p
        cmat := fun j l a b => (List.finRange n).countP (fun i => decide (classes i l = a) && decide (p j i l = b)) }
  else throw .typeError

/-- `f1_score` (`/repo/hub_toolbox/knn_classification.py` lines 646-673); `cm` is a 2 × 2 array of counts. -/
def f1Score [Field K] (cm : Fin 2 → Fin 2 → ℕ) : K :=
  let FP : K := cm 0 1
  let FN : K := cm 1 0
  let TP : K := cm 1 1
  if cm 1 1 = 0 then 0
  else
    let precision := TP / (TP + FP)
    let recall := TP / (TP + FN)
    2 * precision * recall / (precision + recall)

/-- `f1_macro` (`/repo/hub_toolbox/knn_classification.py` lines 675-690); the mean of no values is nan. -/
def f1Macro [Field K] (cms : List (Fin 2 → Fin 2 → ℕ)) : XR K :=
  if cms.length = 0 then .nan else .fin ((cms.map f1Score).sum / cms.length)

/-- `f1_weighted` (`/repo/hub_toolbox/knn_classification.py` lines 692-707); `np.average` raises if the weights sum to
zero. -/
def f1Weighted [Field K] (cms : List (Fin 2 → Fin 2 → ℕ)) : Py K :=
  let w := cms.map (fun cm => cm 1 0 + cm 1 1)
  if w.sum = 0 then .error .zeroDivisionError
  else .ok ((cms.map (fun cm => f1Score cm * ((cm 1 0 + cm 1 1 : ℕ) : K))).sum / (w.sum : K))

/-- `f1_micro` (`/repo/hub_toolbox/knn_classification.py` lines 709-724). -/
def f1Micro [Field K] (cms : List (Fin 2 → Fin 2 → ℕ)) : K :=
  f1Score (fun a b => (cms.map (fun cm => cm a b)).sum)

end HubToolbox.Knn
