import Verif.Analysis.Model
import Mathlib.Algebra.Order.Round
import Mathlib.Data.Finset.Sort

/-!
# Model of the printed report (`hub_toolbox/hubness_analysis.py`, lines 149-162, 231-318)

A line is an element of `Line` with the numbers printed in it; how numbers are rounded for display (`{:.3}`, `{:.4}`) is not modelled.
Printing ends with the first exception, lines printed before stay.
-/

set_option autoImplicit false

namespace HubToolbox.Analysis

/-- The kinds of lines printed. -/
inductive Line where
  | headline
  | title (text : String)
  | parameter (name : String) (default : ℤ)
  | hubness (k : ℤ) (v : ℝ)
  | antiHubs (k : ℤ) (percent : ℝ)
  | maxHub (k : ℤ) (percent : ℝ)
  | noK
  | accuracy (k : ℤ) (percent : ℝ)
  | noAccuracy
  | index (v : ℝ)
  | noIndex
  | embedding (d : Option ℕ)
  | noEmbedding
  | dimension (d : ℤ)
  | noDimension
  | blank
  | thanks

/-- Printed lines and the exception which ended printing, if any. -/
abbrev Out := List Line × Option PyErr

/-- Print `a`, then `b` unless `a` raised. -/
def Out.andThen (a b : Out) : Out :=
  match a with
  | (l, some e) => (l, some e)
  | (l, none) => (l ++ b.1, b.2)

/-- `_header` (`/repo/hub_toolbox/hubness_analysis.py` lines 149-162). -/
def header : List (String × String) :=
  [("mp", "MUTUAL PROXIMITY (Empiric)"), ("mp_gaussi", "MUTUAL PROXIMITY (Independent Gaussians)"),
    ("mp_gammai", "MUTUAL PROXIMITY (Independent Gamma)"), ("ls", "LOCAL SCALING (original)"), ("nicdm", "LOCAL SCALING (NICDM)"),
    ("snn", "SHARED NEAREST NEIGHBORS"), ("cent", "CENTERING"), ("wcent", "WEIGHTED CENTERING"), ("lcent", "LOCALIZED CENTERING"),
    ("dsg", "DISSIM GLOBAL"), ("dsl", "DISSIM LOCAL"), ("orig", "ORIGINAL DATA")]

/-- The defaults of the parameters `k`, `kappa`, `gamma`, in this order (`/repo/hub_toolbox/hubness_analysis.py` lines 271-278; signatures
`/repo/hub_toolbox/local_scaling.py` lines 174, 431, `/repo/hub_toolbox/shared_neighbors.py` line 199, `/repo/hub_toolbox/centering.py`
lines 96, 188-189, 345). -/
def defaults (kind : String) : List (String × ℤ) :=
  if kind = "ls" ∨ kind = "nicdm" then [("k", 7)]
  else if kind = "snn" ∨ kind = "dsl" then [("k", 10)]
  else if kind = "wcent" then [("gamma", 1)]
  else if kind = "lcent" then [("kappa", 40), ("gamma", 1)]
  else []

open Classical in
/-- `sorted(d.keys())`; a dictionary has finitely many keys. -/
noncomputable def sortedKeys (d : ℤ → Option ℝ) : List ℤ :=
  if h : {k | (d k).isSome}.Finite then h.toFinset.sort (· ≤ ·) else []

/-- The loop over the hubness figures (`/repo/hub_toolbox/hubness_analysis.py` lines 279-289). A figure missing in the second or third
dictionary is a `KeyError`, which ends the loop with a message. -/
def hubnessLines (e : Experiment) : List ℤ → List Line
  | [] => []
  | k :: ks =>
    match e.hubness k with
    | none => [.noK]
    | some s =>
      match e.antiHubs k with
      | none => [.hubness k s, .noK]
      | some h =>
        match e.maxHub k with
        | none => [.hubness k s, .antiHubs k h, .noK]
        | some m => .hubness k s :: .antiHubs k h :: .maxHub k m :: hubnessLines e ks

/-- The loop over the accuracies (`/repo/hub_toolbox/hubness_analysis.py` lines 290-296). -/
noncomputable def accuracyLines (e : Experiment) : List ℤ → List Line
  | [] => []
  | k :: ks =>
    match e.knnAccuracy k with
    | none => [.noAccuracy]
    | some v => .accuracy k (100 * v) :: accuracyLines e ks

/-- Goodman-Kruskal index (`/repo/hub_toolbox/hubness_analysis.py` lines 297-303). -/
def indexLine (e : Experiment) : Line :=
  match e.gk with
  | none => .noIndex
  | some g => .index g

/-- Embedding dimension (`/repo/hub_toolbox/hubness_analysis.py` lines 304-310). -/
def embeddingLine (a : HubnessAnalysis) (e : Experiment) : Line :=
  match a.vectors with
  | none => .noEmbedding
  | some _ => .embedding e.embeddingDim

/-- `round(x)` of a python float: halves go to the even neighbour. -/
noncomputable def pyRound (x : ℝ) : ℤ := if Int.fract x = 1 / 2 then (if Even ⌊x⌋ then ⌊x⌋ else ⌊x⌋ + 1) else round x

/-- Intrinsic dimension (`/repo/hub_toolbox/hubness_analysis.py` lines 311-317). Without a previous analysis there is no attribute
`intrinsic_dim`; `round` of `nan` is a `ValueError`, `round` of an infinity an `OverflowError`. -/
noncomputable def dimensionLine (analysed : Bool) (a : HubnessAnalysis) : Out :=
  if analysed then
    match a.intrinsicDim with
    | none => ([.noDimension], none)
    | some (.fin x) => ([.dimension (pyRound x)], none)
    | some .nan => ([], some .valueError)
    | some _ => ([], some .overflowError)
  else ([], some .attributeError)

/-- The report of one experiment (`/repo/hub_toolbox/hubness_analysis.py` lines 267-318). -/
noncomputable def block (analysed : Bool) (a : HubnessAnalysis) (e : Experiment) : Out :=
  match header.lookup e.kind with
  | none => ([], some .keyError)
  | some t =>
    Out.andThen
      ([.title t] ++ (defaults e.kind).map (fun p => .parameter p.1 p.2) ++ hubnessLines e (sortedKeys e.hubness)
        ++ accuracyLines e (sortedKeys e.knnAccuracy) ++ [indexLine e, embeddingLine a e], none)
      (Out.andThen (dimensionLine analysed a) ([.blank], none))

/-- `print_analysis_report` (`/repo/hub_toolbox/hubness_analysis.py` lines 243-319). -/
noncomputable def report (analysed : Bool) (a : HubnessAnalysis) (e : Option Experiment) (nr : ℕ) : Out :=
  Out.andThen (if nr = 0 then [.headline] else [], none)
    ((match e with | some e => [e] | none => a.experiments).foldr (fun e r => Out.andThen (block analysed a e) r) ([], none))

/-- The loop over the experiments with `print_results=True` (`/repo/hub_toolbox/hubness_analysis.py` lines 214-240). -/
noncomputable def loopPrint (env : Env) (hubK knnK : List ℤ) : ℕ → List String → HubnessAnalysis → HubnessAnalysis × Out
  | _, [], a => (a, [.thanks], none)
  | t, kind :: rest, a =>
    match experiment env a hubK knnK t kind with
    | .error err => (a, [], some err)
    | .ok e =>
      let a' := { a with experiments := a.experiments ++ [e] }
      match report true a' (some e) t with
      | (l, some err) => (a', l, some err)
      | (l, none) =>
        let r := loopPrint env hubK knnK (t + 1) rest a'
        (r.1, l ++ r.2.1, r.2.2)

/-- `analyze_hubness` with `print_results=True` (`/repo/hub_toolbox/hubness_analysis.py` lines 169-241). -/
noncomputable def analyzePrint (env : Env) (a : HubnessAnalysis) (experiments : String) (hubK knnK : List ℤ) : HubnessAnalysis × Out :=
  match a.vectors with
  | none => loopPrint env hubK knnK 0 (split experiments) { a with intrinsicDim := none }
  | some ⟨_, _, X⟩ =>
    match IntDim.intrinsicDimension env.lex X 6 12 "mackay" "vector" none 5000 with
    | .error err => (a, [], some err)
    | .ok d => loopPrint env hubK knnK 0 (split experiments) { a with intrinsicDim := some d }

end HubToolbox.Analysis
