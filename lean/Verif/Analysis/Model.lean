import Verif.MPEmp.Model
import Verif.MPPar.Model
import Verif.LS.Model
import Verif.SNN.Model
import Verif.Cent.Model
import Verif.Hubness.Model
import Verif.Knn.Model
import Verif.GK.Model
import Verif.IntDim.Model
import Verif.Dist.Model

/-!
# Model of `hub_toolbox/hubness_analysis.py`

`HubnessAnalysis` objects are records, `analyze_hubness` returns the changed object together with the exception it raised, if
any: experiments finished before the exception stay in the object.

Simplifications: a matrix `D` is given (`D is None` loads the example data set from a file, see `Start.lean`), its entries and those of `vectors`
are finite, class labels are integers, `vectors` is two-dimensional, everything is dense (`np.copy` of a scipy sparse matrix makes a
0-d object array, and `astype(np.float64)` raises). The printed results are in `Report.lean`; messages
due to `verbose` are not modelled. All functions called copy
their matrix argument before changing it, so experiments do not influence each other.
-/

set_option autoImplicit false

namespace HubToolbox.Analysis

/-- Everything the called functions leave open: sorting of ties, random numbers, parallel schedules, special functions. The random
numbers are indexed by the number of the experiment and the position of `k`. -/
structure Env where
  part : ArgPart (XR ℝ)
  srt : Knn.ArgSort (XR ℝ)
  lex : IntDim.LexSort
  dists : MPPar.Dists
  ls : LS.World
  snn : SNN.World ℝ
  order : ∀ n, (Fin n → Fin n → ℝ) → List (Fin n × Fin n)
  rndHub : ℕ → ℕ → Hubness.Rnd
  rndKnn : ℕ → ℕ → Knn.Rnd
  sched : Hubness.Schedule

/-- `HubnessExperiment` after its methods have been called (`/repo/hub_toolbox/hubness_analysis.py` lines 322-353). -/
structure Experiment where
  kind : String
  embeddingDim : Option ℕ
  secondary : PyMat (XR ℝ)
  hubness : ℤ → Option ℝ
  antiHubs : ℤ → Option ℝ
  maxHub : ℤ → Option ℝ
  knnAccuracy : ℤ → Option ℝ
  gk : Option ℝ

/-- `HubnessAnalysis` (`/repo/hub_toolbox/hubness_analysis.py` lines 98-147). -/
structure HubnessAnalysis where
  n : ℕ
  m : ℕ
  D : Fin n → Fin m → ℝ
  classes : Option (Σ l : ℕ, Fin l → ℤ)
  vectors : Option (Σ l d : ℕ, Fin l → Fin d → ℝ)
  metric : String
  intrinsicDim : Option (XR ℝ)
  experiments : List Experiment

/-- `HubnessAnalysis(D, classes, vectors, metric)` (`/repo/hub_toolbox/hubness_analysis.py` lines 98-147). The attribute
`intrinsic_dim` appears with the first analysis. -/
def HubnessAnalysis.init {n m : ℕ} (D : Fin n → Fin m → ℝ) (classes : Option (Σ l : ℕ, Fin l → ℤ))
    (vectors : Option (Σ l d : ℕ, Fin l → Fin d → ℝ)) (metric : String) : HubnessAnalysis :=
  { n := n, m := m, D := D, classes := classes, vectors := vectors, metric := metric, intrinsicDim := none, experiments := [] }

/-- `SEC_DIST.keys()` (`/repo/hub_toolbox/hubness_analysis.py` lines 51-63). -/
def kinds : List String :=
  ["mp", "mp_gaussi", "mp_gammai", "ls", "nicdm", "snn", "cent", "wcent", "lcent", "dsg", "dsl", "orig"]

/-- `cosine_distance` (`/repo/hub_toolbox/distances.py` lines 28-37) of an array which may contain `nan`. -/
noncomputable def cosineDistance {n d : ℕ} (X : Fin n → Fin d → XR ℝ) (i j : Fin n) : XR ℝ :=
  XR.add (Dist.triu1 (fun i j => Cent.cosPair (X i) (X j)) i j) (Dist.triu1 (fun i j => Cent.cosPair (X i) (X j)) j i)

/-- `except TypeError: ... else: raise ValueError` (`/repo/hub_toolbox/hubness_analysis.py` lines 361, 369-371). -/
def untype {α : Type} (r : Py α) : Py α :=
  match r with
  | .error .typeError => .error .valueError
  | r => r

/-- A square result as an array. -/
def square (r : Σ n : ℕ, Fin n → Fin n → XR ℝ) : PyMat (XR ℝ) := .mat false r.1 r.1 r.2

/-- Result of `mutual_proximity_empiric` as an array. -/
def ofResult : MPEmp.Result ℝ → PyMat (XR ℝ)
  | .dense n M => .mat false n n (fun i j => .fin (M i j))
  | .csr n M => .mat true n n M
  | .sampled t s M => .mat false t s M

/-- `sec_dist_fun(D=self.original_distance, metric=self.metric)` for the functions which have a parameter `D`, with the defaults of the
other parameters (`/repo/hub_toolbox/global_scaling.py` lines 25-27, 524-526, 743-744, `/repo/hub_toolbox/local_scaling.py` lines
174-175, 431-432, `/repo/hub_toolbox/shared_neighbors.py` lines 199-200, `/repo/hub_toolbox/hubness_analysis.py` lines 45-47). -/
noncomputable def fromMatrix (env : Env) (kind metric : String) {n m : ℕ} (D : Fin n → Fin m → ℝ) : Py (PyMat (XR ℝ)) :=
  let A : PyMat (XR ℝ) := .mat false n m (fun i j => .fin (D i j))
  if kind = "mp" then (MPEmp.full env.order (.obj A) metric none 0).map ofResult
  else if kind = "mp_gaussi" then
    (MPPar.gaussi env.dists (.mat false n m D) metric 0 30 none none).map (fun r => .mat false r.1 r.2.1 r.2.2)
  else if kind = "mp_gammai" then (MPPar.gammai env.dists (.mat false n m D) metric 30 none).map square
  else if kind = "ls" then (LS.localScaling env.ls A 7 metric none 1).map square
  else if kind = "nicdm" then (LS.nicdm env.ls A 7 metric none 1).map square
  else if kind = "snn" then (SNN.sharedNearestNeighbors env.snn A 10 metric 1).map square
  else .ok A

/-- The vector based secondary distances (`/repo/hub_toolbox/hubness_analysis.py` lines 363-369), with the defaults of the parameters
(`/repo/hub_toolbox/centering.py` lines 24-25, 96-97, 188-189, 284, 345-346). Without vectors `None.shape` and `None.copy()` raise
`AttributeError`, `None ** 2` raises `TypeError`. -/
noncomputable def fromVectors (env : Env) (kind : String) (vectors : Option (Σ l d : ℕ, Fin l → Fin d → ℝ)) :
    Py (PyMat (XR ℝ)) :=
  match vectors with
  | none => if kind = "lcent" then .error .typeError else .error .attributeError
  | some ⟨l, _, X⟩ =>
    if kind = "cent" then (Cent.centering X "vector" none).map (fun C => .mat false l l (cosineDistance C))
    else if kind = "wcent" then (Cent.weightedCentering X "cosine" 1 none).map (fun C => .mat false l l (cosineDistance C))
    else if kind = "lcent" then (Cent.localizedCentering env.snn X none 40 1 1).map
      (fun r => .mat false l r.1 (fun i j => XR.sub (.fin 1) (r.2 i j)))
    else if kind = "dsg" then (Cent.disSimGlobal X none).map (fun r => .mat false l r.1 r.2)
    else (Cent.disSimLocal env.snn X .float64 none 10 1).map (fun r => .mat false l r.1 r.2)

/-- `_calc_secondary_distance` (`/repo/hub_toolbox/hubness_analysis.py` lines 355-372). -/
noncomputable def secondary (env : Env) (a : HubnessAnalysis) (kind : String) : Py (PyMat (XR ℝ)) :=
  if kind ∈ ["cent", "wcent", "lcent", "dsg", "dsl"] then
    -- `centering(D=.., metric=..)` etc. raise `TypeError`: they have no parameter `D`
    fromVectors env kind a.vectors
  else untype (fromMatrix env kind a.metric a.D)

/-- `d[k] = v`. -/
def put (d : ℤ → Option ℝ) (k : ℤ) (v : ℝ) : ℤ → Option ℝ := Function.update d k (some v)

/-- `_calc_hubness` (`/repo/hub_toolbox/hubness_analysis.py` lines 374-386). -/
noncomputable def calcHubness (env : Env) (a : HubnessAnalysis) (rnd : Hubness.Rnd) (e : Experiment) (k : ℤ) : Py Experiment := do
  let ⟨_, r⟩ ← Hubness.hubness env.part rnd env.sched e.secondary k a.metric 1 false true
  pure { e with
    hubness := put e.hubness k r.Sk
    antiHubs := put e.antiHubs k (100 * ((r.Nk.filter (fun c => decide (c = 0))).length : ℝ) / (a.n : ℝ))
    maxHub := put e.maxHub k (100 * ((r.Nk.foldr max 0 : ℕ) : ℝ) / (a.n : ℝ)) }

/-- `_calc_knn_accuracy` (`/repo/hub_toolbox/hubness_analysis.py` lines 388-393). -/
noncomputable def calcKnn (env : Env) (a : HubnessAnalysis) (y : PyVec ℤ) (rnd : Knn.Rnd) (e : Experiment) (k : ℤ) : Py Experiment := do
  let ⟨_, r⟩ ← Knn.score env.srt env.part rnd e.secondary y (.int k) a.metric none
  pure { e with knnAccuracy := put e.knnAccuracy k ((r.perK.map (fun s => s.acc)).headD 0) }

/-- Checks of `HubnessExperiment.__init__` (`/repo/hub_toolbox/hubness_analysis.py` lines 330-341, `/repo/hub_toolbox/io.py` lines
75-107). -/
def checks (a : HubnessAnalysis) (kind : String) : Py Unit := do
  if a.n ≠ a.m then throw .typeError
  checkValidMetric a.metric
  if kind ∉ kinds then throw .valueError
  match a.classes with
  | some ⟨l, _⟩ => if a.n ≠ l then throw .typeError
  | none => pure ()
  match a.vectors with
  | some ⟨l, _, _⟩ => if a.n ≠ l then throw .typeError
  | none => pure ()

/-- One pass of the loop of `analyze_hubness` (`/repo/hub_toolbox/hubness_analysis.py` lines 218-230), experiment number `t`. -/
noncomputable def experiment (env : Env) (a : HubnessAnalysis) (hubK knnK : List ℤ) (t : ℕ) (kind : String) : Py Experiment := do
  checks a kind
  let S ← secondary env a kind
  let e : Experiment :=
    { kind := kind, embeddingDim := a.vectors.map (fun v => v.2.1), secondary := S, hubness := fun _ => none,
      antiHubs := fun _ => none, maxHub := fun _ => none, knnAccuracy := fun _ => none, gk := none }
  let e ← hubK.zipIdx.foldlM (fun e p => calcHubness env a (env.rndHub t p.2) e p.1) e
  match a.classes with
  | none => pure e
  | some ⟨l, y⟩ => do
    let e ← knnK.zipIdx.foldlM (fun e p => calcKnn env a (.vec l y) (env.rndKnn t p.2) e p.1) e
    let g ← GK.index e.secondary (.vec l y) a.metric
    pure { e with gk := some g }

/-- The loop over the experiments (`/repo/hub_toolbox/hubness_analysis.py` lines 214-233). -/
noncomputable def loop (env : Env) (hubK knnK : List ℤ) : ℕ → List String → HubnessAnalysis → HubnessAnalysis × Option PyErr
  | _, [], a => (a, none)
  | t, kind :: rest, a =>
    match experiment env a hubK knnK t kind with
    | .error err => (a, some err)
    | .ok e => loop env hubK knnK (t + 1) rest { a with experiments := a.experiments ++ [e] }

/-- `experiments.split(',')`. -/
def split (s : String) : List String := (s.toList.splitOn ',').map String.ofList

/-- `analyze_hubness` (`/repo/hub_toolbox/hubness_analysis.py` lines 169-241), `intrinsic_dimension` with its defaults
(`/repo/hub_toolbox/intrinsic_dimension.py` lines 24-26). -/
noncomputable def analyze (env : Env) (a : HubnessAnalysis) (experiments : String) (hubK knnK : List ℤ) : HubnessAnalysis × Option PyErr :=
  match a.vectors with
  | none => loop env hubK knnK 0 (split experiments) { a with intrinsicDim := none }
  | some ⟨_, _, X⟩ =>
    match IntDim.intrinsicDimension env.lex X 6 12 "mackay" "vector" none 5000 with
    | .error err => (a, some err)
    | .ok d => loop env hubK knnK 0 (split experiments) { a with intrinsicDim := some d }

/-- Default of the parameter `experiments` (`/repo/hub_toolbox/hubness_analysis.py` line 169). -/
def defaultExperiments : String := "orig,mp,mp_gaussi,nicdm,cent,dsg"

/-- Default of the parameter `hubness_k` (`/repo/hub_toolbox/hubness_analysis.py` line 170). -/
def defaultHubK : List ℤ := [5, 10]

/-- Default of the parameter `knn_k` (`/repo/hub_toolbox/hubness_analysis.py` line 170). -/
def defaultKnnK : List ℤ := [1, 5, 20]

end HubToolbox.Analysis
