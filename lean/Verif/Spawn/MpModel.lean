import Verif.Spawn.Model
import Verif.Dist.MpModel

/-!
# The worker pools of `mp_dissim`

As `Dist.mpDissim`, with both pools, the order of all stores to shared arrays, and the module globals worker processes know. The function
always uses pools, also for `n_jobs=1`.
-/

set_option autoImplicit false

namespace HubToolbox.Spawn

open HubToolbox Dist

/-- Exceptions of worker processes, which `pool.map` raises again. -/
inductive WorkerErr
  | nameError
  | py (e : PyErr)
deriving DecidableEq

/-- What `np.histogram` returns. -/
abbrev Histo := (ℕ → ℕ) × Edges

/-- The globals of the module which `mp_dissim` sets in the main process (`/repo/hub_toolbox/distances.py` lines 234, 244, 247); `none`: not
defined. -/
structure Globals where
  kth : Option (List ℕ)
  histograms : Option (List Histo)

/-- The globals of a worker process: forked processes inherit them, others import the module again. -/
def Start.inherit (s : Start) (g : Globals) : Globals :=
  match s with
  | .fork => g
  | .spawn => ⟨none, none⟩

/-- Any order of the stores of all tasks of `pool.map`. -/
structure Order where
  perm : {A : Type} → List A → List A
  is_perm : ∀ {A : Type} (l : List A), (perm l).Perm l

variable {nx ny d : ℕ}

/-- `_mp_calc_histograms` (`/repo/hub_toolbox/distances.py` lines 121-126). -/
noncomputable def calcHistograms (g : Globals) (Y : Fin ny → Fin d → ℝ) (i : Fin d) : Except WorkerErr Histo :=
  match g.kth with
  | none => .error .nameError
  | some kth => .ok (histogram (fun j => Y j i) (massEdges (fun j => Y j i) kth), massEdges (fun j => Y j i) kth)

/-- `_mp_calc_histograms_n_bins` (`/repo/hub_toolbox/distances.py` lines 128-129): `n_bins` is set by the initializer. -/
noncomputable def calcHistogramsNBins (Y : Fin ny → Fin d → ℝ) (nBins : ℕ) (i : Fin d) : Except WorkerErr Histo :=
  .ok (histogram (fun j => Y j i) (rangeEdges (fun j => Y j i) nBins), rangeEdges (fun j => Y j i) nBins)

/-- `histograms[i]` in a worker process. -/
def Globals.histogram (g : Globals) (i : Fin d) : Except WorkerErr Histo :=
  match g.histograms with
  | none => .error .nameError
  | some hs => match hs[i.val]? with
    | none => .error (.py .indexError)
    | some h => .ok h

/-- The stores of `_mp_create_r_bins` (`/repo/hub_toolbox/distances.py` lines 131-136): cumulative sums above the diagonal, then the whole
slice once more with the transposed part added. A histogram with another number of bins does not fit. -/
def createRBins (g : Globals) (nBins : ℕ) (i : Fin d) : Except WorkerErr (List ((Fin d × ℕ × ℕ) × ℕ)) := do
  let h ← g.histogram i
  if h.2.bins = nBins then
    .ok (((List.range nBins).flatMap fun b => ((List.range nBins).filter fun c => decide (b ≤ c)).map fun c => ((i, b, c), rUpper h.1 b c)) ++
      (List.range nBins).flatMap fun b => (List.range nBins).map fun c => ((i, b, c), rUpper h.1 b c + (if c < b then rUpper h.1 c b else 0)))
  else .error (.py .valueError)

/-- The stores of `_mp_estimate_r` (`/repo/hub_toolbox/distances.py` lines 138-149) to `X_bins` (left) and `Y_bins` (right). -/
noncomputable def estimateR (g : Globals) (X : Fin nx → Fin d → ℝ) (Y : Fin ny → Fin d → ℝ) (nBins : ℕ) (i : Fin d) :
    Except WorkerErr (List ((Fin d × (Fin nx ⊕ Fin ny)) × ℕ)) := do
  let h ← g.histogram i
  .ok (((List.finRange nx).map fun x => ((i, .inl x), binOf h.2 nBins (X x i))) ++
    (List.finRange ny).map fun y => ((i, .inr y), binOf h.2 nBins (Y y i)))

/-- The stores of `_mp_calc_mp_dissim` (`/repo/hub_toolbox/distances.py` lines 151-160), which reads the arrays filled before. -/
noncomputable def calcMpDissim (R : Fin d × ℕ × ℕ → ℕ) (bins : Fin d × (Fin nx ⊕ Fin ny) → ℕ) (p : ℝ) (x : Fin nx) : List ((Fin nx × Fin ny) × ℝ) :=
  (List.finRange ny).map fun y =>
    ((x, y), ((∑ i, ((R (i, bins (i, .inl x), bins (i, .inr y)) : ℕ) / ((nx : ℝ) + ny)) ^ p) / d) ^ (1 / p))

/-- The second pool (`/repo/hub_toolbox/distances.py` lines 251-266). The arrays of the workers are numpy arrays on shared memory. -/
noncomputable def mpSecondPool (q : Pool) (o : Order) (g : Globals) (X : Fin nx → Fin d → ℝ) (Y : Fin ny → Fin d → ℝ) (p : ℝ) (nBins : ℕ) :
    Except WorkerErr (Fin nx → Fin ny → ℝ) := do
  let w1 ← (List.finRange d).mapM (createRBins g nBins)
  let R := q.exec .ndarray (fun _ => 0) (o.perm w1.flatten)
  let w2 ← (List.finRange d).mapM (estimateR g X Y nBins)
  let bins := q.exec .ndarray (fun _ => 0) (o.perm w2.flatten)
  let mp := q.exec .ndarray (fun _ => 0) (o.perm ((List.finRange nx).flatMap (calcMpDissim R bins p)))
  .ok fun x y => mp (x, y)

/-- `mp_dissim(X, Y)` (`/repo/hub_toolbox/distances.py` lines 162-266). `stale` are the globals left by earlier calls. -/
noncomputable def mpDissim (q : Pool) (o : Order) (stale : Globals) (cpu : ℤ) (X : Fin nx → Fin d → ℝ) (Y : Fin ny → Fin d → ℝ) (p : ℝ) (nBins : ℤ)
    (binSize : String) (nJobs : ℤ) : Except WorkerErr (Fin nx → Fin ny → ℝ) :=
  let nJobs := if nJobs = -1 then cpu else nJobs
  let p := if p = 0 then 2 else p
  if nBins < 0 then .error (.py .valueError)
  else if nBins = 0 then .error (.py .zeroDivisionError)
  else
    let B := nBins.toNat
    let step := ny / B
    if step = 0 then .error (.py .valueError)
    else
      let g : Globals := { stale with kth := some (kthList ny step) }
      if nJobs < 1 then .error (.py .valueError)
      else do
        let hs ← if isPrefix binSize "mass" = true then (List.finRange d).mapM (calcHistograms (q.start.inherit g) Y)
          else if isPrefix binSize "range" = true then (List.finRange d).mapM (calcHistogramsNBins Y B)
          else .error (.py .valueError)
        mpSecondPool q o (q.start.inherit { g with histograms := some hs }) X Y p B

end HubToolbox.Spawn
