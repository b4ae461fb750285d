import Verif.Analysis.Success

/-!
# C225: which experiments look at the vectors
-/

set_option autoImplicit false

namespace HubToolbox.Spec

/-- The methods which rescale distances or similarities, and the unscaled data. -/
def matrixMethods : List String := ["orig", "mp", "mp_gaussi", "mp_gammai", "ls", "nicdm", "snn"]

/-- The methods which work on vectors. -/
def vectorMethods : List String := ["cent", "wcent", "lcent", "dsg", "dsl"]

end HubToolbox.Spec

namespace HubToolbox.Analysis

/-- Sets the embedding dimension. -/
def withDim (d : ℕ) (e : Experiment) : Experiment := { e with embeddingDim := some d }

theorem foldlM_map {α β : Type} (f : β → β) (g h : β → α → Py β) (hgh : ∀ b a, g (f b) a = (h b a).map f) (l : List α) :
    ∀ b, l.foldlM g (f b) = (l.foldlM h b).map f := by
  induction l with
  | nil => intro b; rfl
  | cons a l ih =>
    intro b
    rw [List.foldlM_cons, List.foldlM_cons, hgh]
    cases h b a with
    | error e => rfl
    | ok b' => exact ih b'

/-- C225, methods on matrices: hubness, classification accuracy, Goodman-Kruskal index and the evaluated matrix are the same whatever
vectors are given, and whether any are given; only the embedding dimension in the report differs. -/
theorem C225_matrix (env : Env) {n : ℕ} (D : Fin n → Fin n → ℝ) (classes : Option (Σ l : ℕ, Fin l → ℤ))
    {d : ℕ} (X : Fin n → Fin d → ℝ) (metric : String) (hubK knnK : List ℤ) (t : ℕ) (kind : String)
    (hk : kind ∈ Spec.matrixMethods) :
    experiment env (.init D classes (some ⟨n, d, X⟩) metric) hubK knnK t kind
      = (experiment env (.init D classes none metric) hubK knnK t kind).map (fun e => { e with embeddingDim := some d }) := by
  set a := HubnessAnalysis.init D classes (some ⟨n, d, X⟩) metric with ha
  set b := HubnessAnalysis.init D classes none metric with hb
  change _ = (experiment env b hubK knnK t kind).map (withDim d)
  have hc : checks a kind = checks b kind := by
    unfold checks
    simp [ha, hb, HubnessAnalysis.init]
  have hs : secondary env a kind = secondary env b kind := by
    simp only [Spec.matrixMethods, List.mem_cons, List.not_mem_nil, or_false] at hk
    rcases hk with rfl | rfl | rfl | rfl | rfl | rfl | rfl <;> rfl
  have h1 : ∀ (e : Experiment) (p : ℤ × ℕ), calcHubness env a (env.rndHub t p.2) (withDim d e) p.1
      = (calcHubness env b (env.rndHub t p.2) e p.1).map (withDim d) := by
    intro e p
    unfold calcHubness
    change (Hubness.hubness env.part (env.rndHub t p.2) env.sched e.secondary p.1 metric 1 false true >>= _)
      = Except.map _ (Hubness.hubness env.part (env.rndHub t p.2) env.sched e.secondary p.1 metric 1 false true >>= _)
    cases Hubness.hubness env.part (env.rndHub t p.2) env.sched e.secondary p.1 metric 1 false true with
    | error e => rfl
    | ok r => rfl
  have h2 : ∀ (y : PyVec ℤ) (e : Experiment) (p : ℤ × ℕ), calcKnn env a y (env.rndKnn t p.2) (withDim d e) p.1
      = (calcKnn env b y (env.rndKnn t p.2) e p.1).map (withDim d) := by
    intro y e p
    unfold calcKnn
    change (Knn.score env.srt env.part (env.rndKnn t p.2) e.secondary y (.int p.1) metric none >>= _)
      = Except.map _ (Knn.score env.srt env.part (env.rndKnn t p.2) e.secondary y (.int p.1) metric none >>= _)
    cases Knn.score env.srt env.part (env.rndKnn t p.2) e.secondary y (.int p.1) metric none with
    | error e => rfl
    | ok r => rfl
  unfold experiment
  rw [hc, hs]
  cases checks b kind with
  | error e => rfl
  | ok u =>
    cases secondary env b kind with
    | error e => rfl
    | ok S =>
      let e0 : Experiment := ⟨kind, none, S, fun _ => none, fun _ => none, fun _ => none, fun _ => none, none⟩
      change (hubK.zipIdx.foldlM (fun e p => calcHubness env a (env.rndHub t p.2) e p.1) (withDim d e0) >>= _)
        = Except.map _ (hubK.zipIdx.foldlM (fun e p => calcHubness env b (env.rndHub t p.2) e p.1) e0 >>= _)
      rw [foldlM_map (withDim d) _ _ h1]
      cases hubK.zipIdx.foldlM (fun e p => calcHubness env b (env.rndHub t p.2) e p.1) e0 with
      | error e => rfl
      | ok e1 =>
        rcases classes with _ | ⟨l, y⟩
        · rfl
        · change (knnK.zipIdx.foldlM (fun e p => calcKnn env a (.vec l y) (env.rndKnn t p.2) e p.1) (withDim d e1) >>= _)
            = Except.map _ (knnK.zipIdx.foldlM (fun e p => calcKnn env b (.vec l y) (env.rndKnn t p.2) e p.1) e1 >>= _)
          rw [foldlM_map (withDim d) _ _ (h2 (.vec l y))]
          cases knnK.zipIdx.foldlM (fun e p => calcKnn env b (.vec l y) (env.rndKnn t p.2) e p.1) e1 with
          | error e => rfl
          | ok e2 =>
            change (GK.index e2.secondary (.vec l y) metric >>= _) = Except.map _ (GK.index e2.secondary (.vec l y) metric >>= _)
            cases GK.index e2.secondary (.vec l y) metric <;> rfl

/-- C225, methods on vectors, without vectors: the analysis stops at that experiment, with `TypeError` for localized centering and
`AttributeError` for the others; the experiments before are kept. -/
theorem C225_vector (env : Env) {n : ℕ} (D : Fin n → Fin n → ℝ) (y : Option (Fin n → ℤ)) (metric : String)
    (hm : metric = "distance" ∨ metric = "similarity") (hubK knnK : List ℤ) (kind : String) (hk : kind ∈ Spec.vectorMethods) :
    analyze env (.init D (y.map (fun y => ⟨n, y⟩)) none metric) kind hubK knnK
      = (.init D (y.map (fun y => ⟨n, y⟩)) none metric, some (if kind = "lcent" then .typeError else .attributeError)) := by
  set a := HubnessAnalysis.init D (y.map (fun y => ⟨n, y⟩)) none metric with ha
  have hval : Valid a kind := by
    refine ⟨rfl, hm, ?_, ?_, ?_⟩
    · simp only [Spec.vectorMethods, List.mem_cons, List.not_mem_nil, or_false] at hk
      rcases hk with rfl | rfl | rfl | rfl | rfl <;> decide
    · intro l y' h
      rcases y with _ | y
      · cases h
      · simp only [ha, HubnessAnalysis.init, Option.map_some, Option.some.injEq, Sigma.mk.injEq] at h
        exact h.1
    · intro l d X h
      cases h
  have hs : secondary env a kind = .error (if kind = "lcent" then .typeError else .attributeError) := by
    simp only [Spec.vectorMethods, List.mem_cons, List.not_mem_nil, or_false] at hk
    rcases hk with rfl | rfl | rfl | rfl | rfl <;> rfl
  have hsplit : split kind = [kind] := by
    simp only [Spec.vectorMethods, List.mem_cons, List.not_mem_nil, or_false] at hk
    rcases hk with rfl | rfl | rfl | rfl | rfl <;> decide +kernel
  have he : experiment env a hubK knnK 0 kind = .error (if kind = "lcent" then .typeError else .attributeError) := by
    unfold experiment
    refine ok_bind ((checks_ok_iff a kind).2 hval) ?_
    rw [hs]
    rfl
  unfold analyze
  rw [hsplit]
  change loop env hubK knnK 0 [kind] a = _
  rw [loop, he]

/-- `C225_vector` applies: centering of two objects without vectors. -/
example (env : Env) : (analyze env (.init (fun i j : Fin 2 => if i = j then 0 else 1) none none "distance") "cent" [5] []).2
    = some .attributeError := by
  have h := C225_vector env (fun i j : Fin 2 => if i = j then (0 : ℝ) else 1) none "distance" (Or.inl rfl) [5] [] "cent" (by decide)
  rw [Option.map_none] at h
  rw [h]
  rfl

/-- `C225_matrix` applies: the original distances with and without vectors. -/
example (env : Env) (e : Experiment)
    (h : experiment env (.init (fun i j : Fin 2 => if i = j then (0 : ℝ) else 1) none none "distance") [1] [] 0 "orig" = .ok e) :
    experiment env (.init (fun i j : Fin 2 => if i = j then (0 : ℝ) else 1) none (some ⟨2, 1, fun i _ => i⟩) "distance") [1] [] 0 "orig"
      = .ok { e with embeddingDim := some 1 } := by
  rw [C225_matrix env _ none _ "distance" [1] [] 0 "orig" (by decide), h]
  rfl

end HubToolbox.Analysis
