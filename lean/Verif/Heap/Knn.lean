import Verif.Heap.Base
import Verif.Knn.Model

/-!
# kNN classification with its in-place operations

`score` and `predict` of `hub_toolbox/knn_classification.py` as they work on memory. The counters `acc`, `corr`, `cmat` and `y_pred` are
local arrays to which nothing else refers; they are kept as values. The labels are values, too: `target.astype(int)` copies them.
-/

set_option autoImplicit false

namespace HubToolbox.Heap

open HubToolbox HubToolbox.Knn

variable {K : Type} [Field K] [LinearOrder K]

/-- The neighbours of query `i` for each `k`, from the values of its row (`/repo/hub_toolbox/knn_classification.py` lines 203-228,
408-424). -/
def neighbours (srt : ArgSort (XR K)) (rnd : Rnd) {m : ℕ} (metric : String) (ks : List ℤ) (cand : List (Fin m)) (i : ℕ)
    (row : Fin m → XR K) : List (List (Fin m)) :=
  nnLists row (rnd.again i) ks 0 (order srt metric row (rnd.first i cand))

/-- The results of `score` from the neighbours (`/repo/hub_toolbox/knn_classification.py` lines 229-255). -/
def scoreRes {n m : ℕ} (ks : List ℤ) (nClasses : ℕ) (queries : List (Fin n)) (nn : Fin n → List (List (Fin m)))
    (seed : Fin n → ℕ) (colClass : Fin m → ℕ) : Res K n :=
  { nClasses := nClasses
    perK := (List.range ks.length).map (fun j =>
      tally queries.length queries seed (fun i => vote (nClasses - 1) (((nn i).getD j []).map colClass))) }

/-- `score` for an `n × n` array or sparse matrix `D` in memory (`/repo/hub_toolbox/knn_classification.py` lines 97-255, without
`sample_idx`). A sparse matrix is copied and then only read. -/
def scoreH (srt : ArgSort (XR K)) (o : ArgPart (XR K)) (rnd : Rnd) {n : ℕ} (sparse : Bool) (D : Arr n n) (target : Fin n → ℤ)
    (k : KArg) (metric : String) (test : Option (List ℕ)) : M (XR K) (Res K n) := do
  lift (checkValidMetric metric)
  let D ← copy D
  let ks ← lift k.toList
  let queries ← lift (match test with | none => pure (List.finRange n) | some T => toFins n T)
  if sparse then do
    let V ← read D
    lift (scoreSparse o rnd ks V target queries)
  else do
    let cand ← lift (match test with
      | none => pure (List.finRange n)
      | some _ => if queries.isEmpty then pure [] else toFins n (trainSet queries))
    let cl := labelsOf (List.ofFn target)
    let classes := fun i => encode cl (target i)
    let nn ← queries.foldlM (fun (R : Fin n → List (List (Fin n))) i => rowStep false D
      (fun i d => storeAt d i (dSelf metric))
      (fun i v => pure (Function.update R i (neighbours srt rnd metric ks cand i v))) i) (fun _ => [])
    pure (scoreRes ks cl.length queries nn classes classes)

/-- `score` for a dense `n × s` array of distances to samples (`/repo/hub_toolbox/knn_classification.py` lines 97-255 with `sample_idx`). -/
def scoreSampleH (srt : ArgSort (XR K)) (rnd : Rnd) {n s : ℕ} (D : Arr n s) (target : Fin n → ℤ) (k : KArg) (metric : String)
    (idx : Fin s → Fin n) : M (XR K) (Res K n) := do
  lift (checkValidMetric metric)
  let D ← copy D
  let ks ← lift k.toList
  let cl := labelsOf (List.ofFn target)
  let classes := fun i => encode cl (target i)
  storeSamples D idx (dSelf metric)
  let nn ← (List.finRange n).foldlM (fun (R : Fin n → List (List (Fin s))) i => rowStep false D (fun _ _ => pure ())
    (fun i v => pure (Function.update R i (neighbours srt rnd metric ks (List.finRange s) i v))) i) (fun _ => [])
  pure (scoreRes ks cl.length (List.finRange n) nn classes (fun j => classes (idx j)))

/-- The result of `predict` from the neighbours (`/repo/hub_toolbox/knn_classification.py` lines 425-449). -/
def predictRes {n m c : ℕ} (nn : Fin n → List (List (Fin m))) (classes : Fin n → Fin c → ℕ) (colClass : Fin m → Fin c → ℕ) :
    PredRes n c :=
  let p : ℕ → Fin n → Fin c → ℕ := fun j i l => vote 0 (((nn i).getD j []).map (fun x => colClass x l))
  { yPred := p
    cmat := fun j l a b => (List.finRange n).countP (fun i => decide (classes i l = a) && decide (p j i l = b)) }

/-- `if not issparse(D): D = D.copy()` (`/repo/hub_toolbox/knn_classification.py` lines 333-334). -/
def copyDense {α : Type} {n m : ℕ} (sparse : Bool) (D : Arr n m) : M α (Arr n m) := if sparse then pure D else copy D

/-- `predict` for an `n × n` array or sparse matrix `D` in memory (`/repo/hub_toolbox/knn_classification.py` lines 318-449, without
`sample_idx`). Only dense matrices are copied (lines 333-334); sparse rows are made dense, which copies them (line 392). -/
def predictH (srt : ArgSort (XR K)) (rnd : Rnd) {n c : ℕ} (sparse : Bool) (D : Arr n n) (target : Fin n → Fin c → ℤ)
    (k : KArg) (metric : String) (test : Option (List (Fin n))) : M (XR K) (PredRes n c) := do
  lift (checkValidMetric metric)
  let D ← copyDense sparse D
  lift (if test.isSome then throw .unboundLocalError else pure ())
  let ks ← lift k.toList
  let cl := labelsOf (List.flatMap (fun i => List.ofFn (target i)) (List.finRange n))
  let classes := fun i l => encode cl (target i l)
  let nn ← (List.finRange n).foldlM (fun (R : Fin n → List (List (Fin n))) i => rowStep sparse D
    (fun i d => storeAt d i (dSelf metric))
    (fun i v =>
      let nn := neighbours srt rnd metric ks (List.finRange n) i v
      if 0 < c ∧ nn.any List.isEmpty then throw .valueError else pure (Function.update R i nn)) i) (fun _ => [])
  pure (predictRes nn classes classes)

/-- `predict` for an `n × s` matrix of distances to samples (`/repo/hub_toolbox/knn_classification.py` lines 318-449 with
`sample_idx`). Self distances are stored in the matrix itself (lines 379-380), which is the argument if it is sparse. The candidates of a
sparse row are its nonzero entries (lines 391, 404). -/
def predictSampleH (srt : ArgSort (XR K)) (rnd : Rnd) {n s c : ℕ} (sparse : Bool) (D : Arr n s) (target : Fin n → Fin c → ℤ)
    (k : KArg) (metric : String) (idx : Fin s → Fin n) : M (XR K) (PredRes n c) := do
  lift (checkValidMetric metric)
  let D ← copyDense sparse D
  let ks ← lift k.toList
  let cl := labelsOf (List.flatMap (fun i => List.ofFn (target i)) (List.finRange n))
  let classes := fun i l => encode cl (target i l)
  storeSamples D idx (dSelf metric)
  let nn ← (List.finRange n).foldlM (fun (R : Fin n → List (List (Fin s))) i => rowStep sparse D (fun _ _ => pure ())
    (fun i v =>
      let nn := neighbours srt rnd metric ks (if sparse then storedCols v else List.finRange s) i v
      if 0 < c ∧ nn.any List.isEmpty then throw .valueError else pure (Function.update R i nn)) i) (fun _ => [])
  pure (predictRes nn classes (fun j => classes (idx j)))

end HubToolbox.Heap
