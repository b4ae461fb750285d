import Verif.Dist.Model
import Verif.NpSort

/-!
# Model of `hub_toolbox/distances.py`, part 2: `mp_dissim`

Data sets have at least one feature, are not empty and have finite entries. All tasks of a pool write to slices of their own, and each call of
`pool.map` waits for all of them, so that the order of tasks does not matter and is not modelled.
-/

set_option autoImplicit false

namespace HubToolbox.Dist

/-- Edges of bins: `e 0, …, e bins`. -/
structure Edges where
  bins : ℕ
  e : ℕ → ℝ

/-- Values of a feature in ascending order. -/
noncomputable def sorted {n : ℕ} (v : Fin n → ℝ) : List ℝ := Np.sort (List.ofFn v)

/-- `np.histogram_bin_edges(v, bins=n_bins)` of numpy, used by `_mp_calc_histograms_n_bins`
(`/repo/hub_toolbox/distances.py` lines 128-129): bins of the same width from minimum to maximum; if these are the same, the
range is extended by 0.5 on both sides. -/
noncomputable def rangeEdges {n : ℕ} (v : Fin n → ℝ) (nBins : ℕ) : Edges :=
  let lo := (sorted v).getD 0 0
  let hi := (sorted v).getD (n - 1) 0
  let lo' := if lo = hi then lo - 1 / 2 else lo
  let hi' := if lo = hi then hi + 1 / 2 else hi
  ⟨nBins, fun b => lo' + b * ((hi' - lo') / nBins)⟩

/-- `kth` (`/repo/hub_toolbox/distances.py` lines 235-237): every `step`-th position, and the last one. -/
def kthList (n step : ℕ) : List ℕ :=
  let kth := (List.range n).filter (fun t => decide (step ∣ t))
  if kth.getLast? = some (n - 1) then kth else kth ++ [n - 1]

/-- `_mp_find_bin_edges` (`/repo/hub_toolbox/distances.py` lines 121-122): `np.partition(v, kth)[kth]` are the values at
positions `kth` of the sorted feature. -/
noncomputable def massEdges {n : ℕ} (v : Fin n → ℝ) (kth : List ℕ) : Edges :=
  ⟨kth.length - 1, fun b => (sorted v).getD (kth.getD b 0) 0⟩

open Classical in
/-- `np.histogram`: the last bin contains its right edge. -/
noncomputable def histogram {n : ℕ} (v : Fin n → ℝ) (E : Edges) (b : ℕ) : ℕ :=
  (Finset.univ.filter (fun j => E.e b ≤ v j ∧ (v j < E.e (b + 1) ∨ (b + 1 = E.bins ∧ v j ≤ E.e (b + 1))))).card

/-- `np.cumsum(hist[b:])` at position `c - b`, and zero below the diagonal (`/repo/hub_toolbox/distances.py` lines
133-134). -/
def rUpper (hist : ℕ → ℕ) (b c : ℕ) : ℕ := if b ≤ c then ((List.range (c - b + 1)).map (fun t => hist (b + t))).sum else 0

/-- `_mp_create_r_bins` (`/repo/hub_toolbox/distances.py` lines 131-136): the part above the diagonal is added below it. -/
def rBins (hist : ℕ → ℕ) (b c : ℕ) : ℕ := rUpper hist b c + (if c < b then rUpper hist c b else 0)

open Classical in
/-- `np.clip(np.digitize(x, bins=edges) - 1, 0, n_bins - 1)` (`/repo/hub_toolbox/distances.py` lines 141-146). -/
noncomputable def binOf (E : Edges) (nBins : ℕ) (x : ℝ) : ℕ :=
  min (((Finset.range (E.bins + 1)).filter (fun b => E.e b ≤ x)).card - 1) (nBins - 1)

/-- `'mass'.startswith(bin_size)` and the like (`/repo/hub_toolbox/distances.py` lines 243, 246). -/
def isPrefix (s name : String) : Bool := s.toList.isPrefixOf name.toList

/-- `_mp_calc_mp_dissim` (`/repo/hub_toolbox/distances.py` lines 151-160). Simplification: `p > 0`, or no region is empty. -/
noncomputable def mpEntry {nx ny d : ℕ} (X : Fin nx → Fin d → ℝ) (Y : Fin ny → Fin d → ℝ) (p : ℝ) (nBins : ℕ)
    (E : Fin d → Edges) (x : Fin nx) (y : Fin ny) : ℝ :=
  ((∑ i, ((rBins (histogram (fun j => Y j i) (E i)) (binOf (E i) nBins (X x i)) (binOf (E i) nBins (Y y i)) : ℕ) /
    ((nx : ℝ) + ny)) ^ p) / d) ^ (1 / p)

/-- `mp_dissim(X, Y)` (`/repo/hub_toolbox/distances.py` lines 162-266); without `Y`, `Y` is `X`. If the number of bins is not
positive, python raises `ZeroDivisionError` (zero) or numpy cannot reshape (negative). If it is larger than the number of
objects, the step of the slice in line 235 is zero. If a histogram has not `n_bins` bins, it does not fit into the array for
the regions. -/
noncomputable def mpDissim {nx ny d : ℕ} (cpu : ℤ) (X : Fin nx → Fin d → ℝ) (Y : Fin ny → Fin d → ℝ) (p : ℝ) (nBins : ℤ)
    (binSize : String) (nJobs : ℤ) : Py (Fin nx → Fin ny → ℝ) :=
  let nJobs := if nJobs = -1 then cpu else nJobs
  let p := if p = 0 then 2 else p
  if nBins < 0 then .error .valueError
  else if nBins = 0 then .error .zeroDivisionError
  else
    let B := nBins.toNat
    let step := ny / B
    if step = 0 then .error .valueError
    else
      let kth := kthList ny step
      if nJobs < 1 then .error .valueError
      else if isPrefix binSize "mass" = true then
        if kth.length - 1 = B then .ok (mpEntry X Y p B (fun i => massEdges (fun j => Y j i) kth)) else .error .valueError
      else if isPrefix binSize "range" = true then .ok (mpEntry X Y p B (fun i => rangeEdges (fun j => Y j i) B))
      else .error .valueError

end HubToolbox.Dist
