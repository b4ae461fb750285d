import Verif.Knn.RPrecision

/-!
# k-NN classification and R-precision of csr matrices with explicitly stored zeros

`row.nnz` and `row.data` refer to all stored entries, `row.nonzero()[1]` to the stored entries which are not zero. In
`Verif/Knn/Model.lean` every stored entry is non-zero; here a row is the list of its stored entries in the order of storage.
-/

set_option autoImplicit false

namespace HubToolbox.Knn

variable {K : Type}

/-- A csr matrix: for each row the stored columns and values. -/
abbrev CsrRows (n : ℕ) (K : Type) := Fin n → List (Fin n × XR K)

/-- `row[0, j]` (no column is stored twice). -/
def valueAt [Zero K] {n : ℕ} (row : List (Fin n × XR K)) (j : Fin n) : XR K :=
  match row.find? (fun e => decide (e.1 = j)) with
  | some e => e.2
  | none => .fin 0

/-- `row.nonzero()[1]`: scipy drops the stored zeros. -/
def nonzeroCols [Zero K] [DecidableEq K] {n : ℕ} (row : List (Fin n × XR K)) : List (Fin n) :=
  (row.filter (fun e => decide (e.2 ≠ .fin 0))).map Prod.fst

/-- The positions `d2idx` of `/repo/hub_toolbox/knn_classification.py` lines 191-200, 482-495 for `nnz = L + 1` values. -/
def partOrder [LinearOrder K] (o : ArgPart (XR K)) (L : ℕ) (d2 : Fin (L + 1) → XR K) (ks : List ℤ) : List (Fin (L + 1)) :=
  let kth := sparseKth L ks
  let d2idx := o.run d2 (fun c : Fin kth.length => kth.get c)
  (((List.finRange (L + 1)).map d2idx).filter (fun p => decide (d2 p ≠ .nan))).reverse

/-- Element `p` of an array of columns. -/
def colAt {n : ℕ} (cols : List (Fin n)) (p : ℕ) : Py (Fin n) :=
  match cols[p]? with
  | some c => .ok c
  | none => .error .indexError

/-- Candidate order of one row (`/repo/hub_toolbox/knn_classification.py` lines 187-202, 480-499). `rp` is the shuffled list of positions
`0, …, nnz - 1`. Fancy indexing of `row.nonzero()[1]` raises `IndexError` if a position is out of bounds. -/
def storedOrder [LinearOrder K] [Zero K] (o : ArgPart (XR K)) {n : ℕ} (row : List (Fin n × XR K)) (ks : List ℤ) :
    List (Fin row.length) → Py (List (Fin n))
  | [] => .ok []
  | x :: t => do
    let rp := x :: t
    let pos := (partOrder o t.length (fun p => (row.get (rp.get p)).2) ks).map rp.get
    let idx ← pos.mapM (fun p => colAt (nonzeroCols row) p.val)
    pure idx.tail

/-- The result of a computation which is known to succeed. -/
def getOk {α : Type} (d : α) : Py α → α
  | .ok a => a
  | .error _ => d

/-- `score` on a csr matrix (`/repo/hub_toolbox/knn_classification.py` lines 144-147, 170-174, 187-202, 211-246). The queries are handled in
order; the only error of a query is that of `storedOrder`. -/
def scoreStored [Field K] [LinearOrder K] (o : ArgPart (XR K)) (rnd : Rnd) {n : ℕ} (ks : List ℤ) (rows : CsrRows n K)
    (target : Fin n → ℤ) (queries : List (Fin n)) : Py (Res K n) := do
  if n = 0 then throw .valueError
  let cl := labelsOf (List.ofFn target)
  let classes := fun i => encode cl (target i)
  let ord := fun i : Fin n => storedOrder o (rows i) ks (rnd.first i.val (List.finRange (rows i).length))
  let _ ← queries.mapM ord
  pure
    { nClasses := cl.length + 2
      perK := (List.range ks.length).map (fun j =>
        tally queries.length queries classes (fun i =>
          vote cl.length
            (((nnLists (valueAt (rows i)) (rnd.again i.val) ks 0 (getOk [] (ord i))).getD j []).map classes))) }

/-- The neighbours used by R-precision (`/repo/hub_toolbox/knn_classification.py` lines 477-509). -/
def rStored [LinearOrder K] [Zero K] (o : ArgPart (XR K)) (rnd : Rnd) {n : ℕ} (rows : CsrRows n K) (R : ℕ) (i : Fin n) : Py (List (Fin n)) := do
  let ord ← storedOrder o (rows i) [(R : ℤ)] (rnd.first i.val (List.finRange (rows i).length))
  let idx := ord.take R
  pure (if idx.countP (fun x => (valueAt (rows i) x).isFinite) = 0 then rnd.again i.val 0 idx else idx)

/-- `_r_prec_worker` (`/repo/hub_toolbox/knn_classification.py` lines 468-525). -/
def rWorkerStored [Field K] [LinearOrder K] (o : ArgPart (XR K)) (rnd : Rnd) {n : ℕ} (rows : CsrRows n K) (y : Fin n → ℤ) (w : ℕ) (i : Fin n) :
    Py (RItem K w) := do
  let R := relevant y i
  if R = 0 then pure { prec := 0, nn := fun _ => none }
  else
    let nb ← rStored o rnd rows R i
    let yPredicted := nb.map y
    let correct := yPredicted.countP (fun v => decide (v = y i))
    if correct = 0 then pure { prec := 0, nn := fun _ => none }
    else pure { prec := (correct : K) / (R : K), nn := fun a => (yPredicted.take w)[a.val]? }

/-- `r_precision` of a csr similarity matrix (`/repo/hub_toolbox/knn_classification.py` lines 594-644): `pool.imap` raises the error of a worker. -/
def rPrecisionStored [Field K] [LinearOrder K] (o : ArgPart (XR K)) (rnd : Rnd) {n : ℕ} (rows : CsrRows n K) (y : Fin n → ℤ) (w : ℕ) :
    Py (RRes K n w) := do
  let _ ← (List.finRange n).mapM (rWorkerStored o rnd rows y w)
  let r := fun i => getOk { prec := 0, nn := fun _ => none } (rWorkerStored o rnd rows y w i)
  let wsum := ((List.finRange n).map (relevant y)).sum
  if wsum = 0 then throw .zeroDivisionError
  pure
    { macroAvg := if n = 0 then .nan else .fin (((List.finRange n).map (fun i => (r i).prec)).sum / (n : K))
      weighted := ((List.finRange n).map (fun i => (r i).prec * (relevant y i : K))).sum / (wsum : K)
      perItem := fun i => (r i).prec
      relevantItems := relevant y
      yPred := fun i => (r i).nn }

end HubToolbox.Knn
