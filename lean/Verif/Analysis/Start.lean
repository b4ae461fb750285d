import Verif.Analysis.Success
import Verif.InOut.Dexter

/-!
# C297: the analysis of the example data

`HubnessAnalysis()` without a matrix (`/repo/hub_toolbox/hubness_analysis.py` lines 118-131).
-/

set_option autoImplicit false

namespace HubToolbox.Analysis

open HubToolbox

/-- The number in an entry of a matrix. -/
def number : XR ℝ → ℝ
  | .fin x => x
  | _ => 0

/-- `HubnessAnalysis(D, classes, vectors, metric)` (`/repo/hub_toolbox/hubness_analysis.py` lines 98-147) with the branch `D is None`: the other
arguments are overwritten. `labels` and `data` are the texts of the files of the example data, `n = 300` and `dim = 20000` in the code. Simplifications:
as for `HubnessAnalysis.init`, entries of matrices are numbers (`nan`, the distance of a zero vector, is not modelled) and labels are integers. -/
noncomputable def HubnessAnalysis.new (float : List Char → Py ℝ) (n dim : ℕ) (labels data : List Char) (D : Option (Σ n m : ℕ, Fin n → Fin m → ℝ))
    (classes : Option (Σ l : ℕ, Fin l → ℤ)) (vectors : Option (Σ l d : ℕ, Fin l → Fin d → ℝ)) (metric : String) : Py HubnessAnalysis :=
  match D with
  | none => do
    let (D, classes, vectors) ← InOut.loadDexter float n dim labels data
    match D, classes, vectors with
    | .mat _ _ _ D, .vec l y, .mat _ l' d X =>
      pure (.init (fun i j => number (D i j)) (some ⟨l, fun i => ⌊y i⌋⟩) (some ⟨l', d, X⟩) "distance")
    | _, _, _ => throw .typeError
  | some ⟨_, _, D⟩ => pure (.init D classes vectors metric)

section
open InOut Spec
variable {float : List Char → Py ℝ} (hf : ∀ z : ℤ, float (decimal z) = .ok (z : ℝ))
include hf

theorem new_none {n dim : ℕ} {ltext dtext : List Char} {labels : List ℤ} {data : List (List (ℤ × ℤ))} (hl : LabelFile ltext labels)
    (hd : DataFile dim dtext data) {m : ℕ} (hm : labels.length = m) (h1 : m ≠ 1) (hn : data.length ≤ n) (classes : Option (Σ l : ℕ, Fin l → ℤ))
    (vectors : Option (Σ l d : ℕ, Fin l → Fin d → ℝ)) (metric : String) :
    HubnessAnalysis.new float n dim ltext dtext none classes vectors metric =
      .ok (.init (fun i j => number (Dist.cosineDistance (fun (i : Fin n) (j : Fin dim) => ((lastValue (data.getD i.val []) ((j.val : ℤ) + 1) : ℤ) : ℝ)) i j))
        (some ⟨m, fun i => labels.getD i 0⟩)
        (some ⟨n, dim, fun i j => ((lastValue (data.getD i.val []) ((j.val : ℤ) + 1) : ℤ) : ℝ)⟩) "distance") := by
  unfold HubnessAnalysis.new
  simp only
  rw [loadDexter_eq hf hl hd hm h1 hn]
  simp only [bind, Except.bind, pure, Except.pure, Int.floor_intCast]

/-- **C297**: `HubnessAnalysis()` without a matrix is `HubnessAnalysis(D, y, X)` with the labels `y` and the vectors `X` of the example data and the cosine
distances `D` of these vectors, whatever the other arguments are. -/
theorem C297_same {n dim : ℕ} {ltext dtext : List Char} {labels : List ℤ} {data : List (List (ℤ × ℤ))} (hl : LabelFile ltext labels)
    (hd : DataFile dim dtext data) (hn : labels.length = n) (hn' : data.length = n) (h2 : 2 ≤ n) (X : Fin n → Fin dim → ℝ)
    (hX : ∀ i j, X i j = lastValue (data.getD i.val []) ((j.val : ℤ) + 1)) (h0 : ∀ i, X i ≠ 0) (classes : Option (Σ l : ℕ, Fin l → ℤ))
    (vectors : Option (Σ l d : ℕ, Fin l → Fin d → ℝ)) (metric : String) :
    HubnessAnalysis.new float n dim ltext dtext none classes vectors metric =
      HubnessAnalysis.new float n dim ltext dtext (some ⟨n, n, fun i j => 1 - Spec.cosAngle (X i) (X j)⟩) (some ⟨n, fun i => labels.getD i 0⟩)
        (some ⟨n, dim, X⟩) "distance" := by
  have e : (fun (i : Fin n) (j : Fin dim) => ((lastValue (data.getD i.val []) ((j.val : ℤ) + 1) : ℤ) : ℝ)) = X :=
    funext fun i => funext fun j => (hX i j).symm
  rw [new_none hf hl hd hn (by omega) hn'.le, e]
  have hD : (fun i j => number (Dist.cosineDistance X i j)) = fun i j => 1 - Spec.cosAngle (X i) (X j) := by
    funext i j
    obtain ⟨v, hv, rfl, -⟩ := Dist.C143_value_partial X i j (h0 i) (h0 j)
    rw [hv]
    rfl
  rw [hD]
  rfl

/-- **C297**: `HubnessAnalysis().analyze_hubness()` runs to the end for example data of more than twelve vectors, none of which is zero. -/
theorem C297_runs (env : Env) {n dim : ℕ} (hdim : 0 < dim) {ltext dtext : List Char} {labels : List ℤ} {data : List (List (ℤ × ℤ))}
    (hl : LabelFile ltext labels) (hd : DataFile dim dtext data) (hn : labels.length = n) (hn' : data.length = n) (h12 : 12 < n)
    (h0 : ∀ i : Fin n, ∃ j : Fin dim, lastValue (data.getD i.val []) ((j.val : ℤ) + 1) ≠ 0) :
    ∃ a a', HubnessAnalysis.new float n dim ltext dtext none none none "distance" = .ok a ∧
      analyze env a defaultExperiments defaultHubK defaultKnnK = (a', none) ∧
      a'.experiments.map Experiment.kind = ["orig", "mp", "mp_gaussi", "nicdm", "cent", "dsg"] := by
  obtain ⟨X, hX⟩ : ∃ X : Fin n → Fin dim → ℝ, ∀ i j, X i j = lastValue (data.getD i.val []) ((j.val : ℤ) + 1) := ⟨_, fun _ _ => rfl⟩
  have h0' : ∀ i, X i ≠ 0 := by
    intro i e
    obtain ⟨j, hj⟩ := h0 i
    have := hX i j
    rw [e, Pi.zero_apply] at this
    exact hj (by exact_mod_cast this.symm)
  have hdef : defaultExperiments = ",".intercalate ["orig", "mp", "mp_gaussi", "nicdm", "cent", "dsg"] := by decide +kernel
  obtain ⟨a', h⟩ := C155_succeeds_partial env (by omega : 0 < n) (fun i j => 1 - Spec.cosAngle (X i) (X j))
    (some fun i => labels.getD i 0) (some ⟨dim, X⟩) (by intro v hv; cases hv; exact ⟨h12, hdim⟩) "distance" (Or.inl rfl)
    ["orig", "mp", "mp_gaussi", "nicdm", "cent", "dsg"] (by simp)
    (by
      intro kind hkind
      unfold Needs
      simp only [List.mem_cons, List.not_mem_nil, or_false] at hkind
      rcases hkind with rfl | rfl | rfl | rfl | rfl | rfl <;> simp <;> omega) defaultHubK defaultKnnK (by decide)
  rw [← hdef] at h
  refine ⟨_, a', C297_same hf hl hd hn hn' (by omega) X hX h0' none none "distance", h, ?_⟩
  rcases analyze_spec env _ a' _ _ _ _ h with ⟨_, e, _, _, _, h', -⟩ | ⟨done, rest, new, h1, h2', -, h3, h4, h5⟩
  · cases h'
  · rcases h5 with ⟨rfl, -⟩ | ⟨_, _, _, -, h', -⟩
    · rw [split_default, List.append_nil] at h1
      rw [h2', h1]
      simp only [HubnessAnalysis.init, List.nil_append]
      apply List.ext_getElem
      · rw [List.length_map, h3]
      · intro i hi hi'
        rw [List.getElem_map]
        exact (experiment_inv (h4 i hi' (by rw [h3]; exact hi'))).name
    · cases h'

/-- **C297**: with a labels file of another length the analysis ends with a `TypeError` before the first experiment is finished. -/
theorem C297_labels (env : Env) {n dim : ℕ} (hdim : 0 < dim) {ltext dtext : List Char} {labels : List ℤ} {data : List (List (ℤ × ℤ))}
    (hl : LabelFile ltext labels) (hd : DataFile dim dtext data) (hn : labels.length ≠ n) (h1 : labels.length ≠ 1) (hn' : data.length ≤ n) (h12 : 12 < n) :
    ∃ a a', HubnessAnalysis.new float n dim ltext dtext none none none "distance" = .ok a ∧
      analyze env a defaultExperiments defaultHubK defaultKnnK = (a', some .typeError) ∧ a'.experiments = [] := by
  obtain ⟨v, hv⟩ := intrinsic_ok env (fun (i : Fin n) (j : Fin dim) => ((lastValue (data.getD i.val []) ((j.val : ℤ) + 1) : ℤ) : ℝ)) h12 hdim
  have hexp : ∀ a : HubnessAnalysis, a.n = n → a.m = n → a.metric = "distance" → (∃ y, a.classes = some ⟨labels.length, y⟩) →
      experiment env a defaultHubK defaultKnnK 0 "orig" = .error .typeError := by
    intro a e1 e2 e3 ⟨y, e4⟩
    unfold experiment checks
    rw [e1, e2, e3, e4]
    simp [hn.symm, kinds, checkValidMetric, bind, Except.bind, throw, throwThe, MonadExceptOf.throw]
  have key : ∀ a : HubnessAnalysis, a.n = n → a.m = n → a.metric = "distance" → (∃ y, a.classes = some ⟨labels.length, y⟩) →
      a.vectors = some ⟨n, dim, fun i j => ((lastValue (data.getD i.val []) ((j.val : ℤ) + 1) : ℤ) : ℝ)⟩ → a.experiments = [] →
      ∃ a', analyze env a defaultExperiments defaultHubK defaultKnnK = (a', some .typeError) ∧ a'.experiments = [] := by
    intro a e1 e2 e3 e4 e5 e6
    refine ⟨{ a with intrinsicDim := some v }, ?_, e6⟩
    have e7 : analyze env a defaultExperiments defaultHubK defaultKnnK =
        loop env defaultHubK defaultKnnK 0 (split defaultExperiments) { a with intrinsicDim := some v } := by
      obtain ⟨n', m', D, cl, ve, me, dm, ex⟩ := a
      simp only at e5
      subst e5
      unfold analyze
      simp only [hv]
    rw [e7, split_default, loop, hexp { a with intrinsicDim := some v } e1 e2 e3 e4]
  have hnew := new_none hf hl hd rfl h1 hn' none none "distance"
  obtain ⟨a', h⟩ := key (.init _ _ _ _) rfl rfl rfl ⟨_, rfl⟩ rfl rfl
  exact ⟨_, a', hnew, h⟩

end

/-! ### Non-vacuity -/

section
open InOut Spec

theorem labelFile_lines (labels : List ℤ) : LabelFile (labels.flatMap fun z => decimal z ++ ['\n']) labels := by
  induction labels with
  | nil => exact ⟨[], [], .nil, .nil, rfl⟩
  | cons z l ih =>
    obtain ⟨ls, os, h1, h2, h3⟩ := ih
    refine ⟨decimal z :: ls, some z :: os, ?_, .cons ⟨decimal z, ⟨?_, Or.inl rfl⟩, ?_⟩ h2, ?_⟩
    · rw [List.flatMap_cons, List.append_assoc]
      exact .cons _ _ _ (fun h => (decimal_space h).2.2 rfl) h1
    · intro h
      rcases decimal_char h with h | h
      · cases h
      · exact absurd h (by decide)
    · have := LineOf.last [] (decimal z) noBlank
      simpa using this
    · rw [List.reduceOption_cons_of_some, h3]

theorem dataFile_lines {dim : ℕ} (data : List (ℤ × ℤ)) (h : ∀ w ∈ data, 1 ≤ w.1 ∧ w.1 ≤ dim) :
    DataFile dim (data.flatMap fun w => entryText w ++ ['\n']) (data.map fun w => [w]) := by
  refine ⟨?_, ?_⟩
  · clear h
    induction data with
    | nil => exact ⟨[], .nil, .nil⟩
    | cons w l ih =>
      obtain ⟨ls, h1, h2⟩ := ih
      refine ⟨entryText w :: ls, ?_, .cons ?_ h2⟩
      · rw [List.flatMap_cons, List.append_assoc]
        refine .cons _ _ _ (fun h => ?_) h1
        have := (entryText_word w).2 _ h
        revert this
        decide
      · have := LineOf.last [] (entryText w) noBlank
        simpa using this
  · intro words hw w hww
    obtain ⟨x, hx, rfl⟩ := List.mem_map.1 hw
    rw [List.mem_singleton] at hww
    subst hww
    exact h w hx

/-- Seven vectors `(1, 0)` and seven vectors `(0, 5)` in two classes. -/
example (env : Env) := C297_runs floatOfInt_decimal env (n := 14) (dim := 2) (by norm_num)
  (labelFile_lines (List.replicate 7 1 ++ List.replicate 7 (-1)))
  (dataFile_lines (List.replicate 7 (1, 1) ++ List.replicate 7 (2, 5)) (by decide)) rfl rfl (by norm_num) (by decide)

example (env : Env) := C297_labels floatOfInt_decimal env (n := 14) (dim := 2) (by norm_num)
  (labelFile_lines (List.replicate 7 1 ++ List.replicate 6 (-1)))
  (dataFile_lines (List.replicate 7 (1, 1) ++ List.replicate 7 (2, 5)) (by decide)) (by decide) (by decide) (by decide) (by norm_num)

example (metric : String) := C297_same floatOfInt_decimal labels_file data_file rfl rfl le_rfl
  (fun i j => ((lastValue ([[(3, 4), (1, 3)], [(3, 2)]].getD i.val []) ((j.val : ℤ) + 1) : ℤ) : ℝ)) (fun i j => rfl) (by
    intro i h
    have h2 := congrFun h 2
    have h3 : lastValue ([[(3, 4), (1, 3)], [(3, 2)]].getD i.val []) 3 = 0 := Int.cast_injective (α := ℝ) (by simpa using h2)
    have : ∀ i : Fin 2, lastValue ([[(3, 4), (1, 3)], [(3, 2)]].getD i.val []) 3 ≠ 0 := by decide
    exact this i h3) none none metric

end

end HubToolbox.Analysis
