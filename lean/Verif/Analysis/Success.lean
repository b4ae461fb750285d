import Verif.Analysis.Numbers
import Verif.LS.Reject

/-!
# Which analyses run to the end (C155), and similarity data (C156)
-/

set_option autoImplicit false

namespace HubToolbox.Analysis

/-! ### A single experiment -/

theorem calcHubness_ok (env : Env) (a : HubnessAnalysis) (rnd : Hubness.Rnd) (e : Experiment) (k : ℤ)
    (hm : a.metric = "distance" ∨ a.metric = "similarity") (hn : 0 < a.n) (M : Fin a.n → Fin a.n → XR ℝ)
    (hM : e.secondary = .mat false a.n a.n M) (hk : 0 ≤ k) : ∃ e', calcHubness env a rnd e k = .ok e' := by
  have hc : Hubness.Covered 1 a.metric a.n a.n := by simp [Hubness.Covered]
  obtain ⟨r, hr⟩ := (Hubness.C01_hubness_succeeds_iff env.part rnd env.sched false M k a.metric 1 false true hc).2
    ⟨hm, hk, hn, Or.inl rfl⟩
  have h := (Hubness.C01_hubness_argument env.part rnd env.sched k a.metric 1 false true (by simp)).2.2 false a.n a.n M
  rw [hr] at h
  unfold calcHubness
  rw [hM, h]
  exact ⟨_, rfl⟩

theorem hubFold_ok (env : Env) (a : HubnessAnalysis) (t : ℕ) (hm : a.metric = "distance" ∨ a.metric = "similarity")
    (hn : 0 < a.n) (M : Fin a.n → Fin a.n → XR ℝ) (ks : List (ℤ × ℕ)) (hk : ∀ p ∈ ks, 0 ≤ p.1) : ∀ (e : Experiment),
    e.secondary = .mat false a.n a.n M →
    ∃ e', ks.foldlM (fun e p => calcHubness env a (env.rndHub t p.2) e p.1) e = .ok e' := by
  induction ks with
  | nil => exact fun e _ => ⟨e, rfl⟩
  | cons p ks ih =>
    intro e he
    obtain ⟨e1, h1⟩ := calcHubness_ok env a (env.rndHub t p.2) e p.1 hm hn M he (hk p (by simp))
    obtain ⟨e2, h2⟩ := ih (fun q hq => hk q (by simp [hq])) e1 ((calcHubness_inv h1).2.2.1.trans he)
    refine ⟨e2, ?_⟩
    rw [List.foldlM_cons, h1]
    exact h2

theorem calcKnn_ok (env : Env) (a : HubnessAnalysis) (y : Fin a.n → ℤ) (rnd : Knn.Rnd) (e : Experiment) (k : ℤ)
    (hm : a.metric = "distance" ∨ a.metric = "similarity") (hn : 0 < a.n) (M : Fin a.n → Fin a.n → XR ℝ)
    (hM : e.secondary = .mat false a.n a.n M) : ∃ e', calcKnn env a (.vec a.n y) rnd e k = .ok e' := by
  obtain ⟨r, hr, -⟩ := Knn.C42_loo hn env.srt env.part rnd false M y [k] a.metric hm
  unfold calcKnn
  rw [hM, score_int, hr]
  exact ⟨_, rfl⟩

theorem knnFold_ok (env : Env) (a : HubnessAnalysis) (y : Fin a.n → ℤ) (t : ℕ)
    (hm : a.metric = "distance" ∨ a.metric = "similarity") (hn : 0 < a.n) (M : Fin a.n → Fin a.n → XR ℝ)
    (ks : List (ℤ × ℕ)) : ∀ (e : Experiment), e.secondary = .mat false a.n a.n M →
    ∃ e', ks.foldlM (fun e p => calcKnn env a (.vec a.n y) (env.rndKnn t p.2) e p.1) e = .ok e' := by
  induction ks with
  | nil => exact fun e _ => ⟨e, rfl⟩
  | cons p ks ih =>
    intro e he
    obtain ⟨e1, h1⟩ := calcKnn_ok env a y (env.rndKnn t p.2) e p.1 hm hn M he
    obtain ⟨e2, h2⟩ := ih e1 ((calcKnn_inv h1).2.2.1.trans he)
    refine ⟨e2, ?_⟩
    rw [List.foldlM_cons, h1]
    exact h2

theorem ok_bind {α β : Type} {r : Py α} {f : α → Py β} {x : α} {y : Py β} (h : r = .ok x) (h' : f x = y) : (r >>= f) = y := by
  rw [h]
  exact h'

/-- An experiment whose secondary distances can be computed runs to the end. -/
theorem experiment_ok (env : Env) (a : HubnessAnalysis) (hubK knnK : List ℤ) (t : ℕ) (kind : String) (hv : Valid a kind)
    (hn : 0 < a.n) (hk : ∀ k ∈ hubK, 0 ≤ k) (S : PyMat (XR ℝ)) (hS : secondary env a kind = .ok S) :
    ∃ e, experiment env a hubK knnK t kind = .ok e := by
  obtain ⟨M, hM⟩ := secondary_shape env a kind hv hS
  obtain ⟨e1, h1⟩ := hubFold_ok env a t hv.metric hn M hubK.zipIdx (by
    intro p hp
    apply hk
    rw [← zipIdx_fst hubK]
    exact List.mem_map.2 ⟨p, hp, rfl⟩)
    { kind := kind, embeddingDim := a.vectors.map (fun v => v.2.1), secondary := S, hubness := fun _ => none,
      antiHubs := fun _ => none, maxHub := fun _ => none, knnAccuracy := fun _ => none, gk := none } hM
  have hs1 : e1.secondary = .mat false a.n a.n M := (hubFold_inv env a t _ _ _ h1).2.2.1.trans hM
  have key : ∀ e, (match a.classes with
      | none => pure e1
      | some ⟨l, y⟩ => do
        let e ← knnK.zipIdx.foldlM (fun e p => calcKnn env a (.vec l y) (env.rndKnn t p.2) e p.1) e1
        let g ← GK.index e.secondary (.vec l y) a.metric
        pure { e with gk := some g } : Py Experiment) = .ok e → experiment env a hubK knnK t kind = .ok e := by
    intro e he
    unfold experiment
    exact ok_bind ((checks_ok_iff a kind).2 hv) (ok_bind hS (ok_bind h1 he))
  rcases hc : a.classes with _ | ⟨l, y⟩
  · exact ⟨e1, key _ (by rw [hc]; rfl)⟩
  · obtain rfl := hv.classes l y hc
    obtain ⟨e2, h2⟩ := knnFold_ok env a y t hv.metric hn M knnK.zipIdx e1 hs1
    have hs2 : e2.secondary = .mat false a.n a.n M := (knnFold_inv env a _ t _ _ _ h2).2.2.1.trans hs1
    obtain ⟨g, hg⟩ := (GK.C14_accepts_iff e2.secondary (.vec a.n y) a.metric).1.2 ⟨false, a.n, M, y, hs2, rfl, hv.metric, Or.inl rfl⟩
    refine ⟨{ e2 with gk := some g }, key _ ?_⟩
    rw [hc]
    exact ok_bind h2 (ok_bind hg rfl)

/-! ### Secondary distances which can be computed -/

/-- What the defaults of the methods need: enough points, vectors, distances. -/
def Needs (n : ℕ) (metric : String) (hasVectors : Bool) (kind : String) : Prop :=
  kind ∈ ["orig", "mp", "mp_gaussi", "mp_gammai"] ∨ (kind = "ls" ∧ 7 ≤ n) ∨
  (kind = "nicdm" ∧ 7 ≤ n ∧ metric = "distance") ∨ (kind = "snn" ∧ 10 < n) ∨
  (kind ∈ ["cent", "wcent", "dsg"] ∧ hasVectors = true) ∨ (kind = "dsl" ∧ hasVectors = true ∧ 10 < n) ∨
  (kind = "lcent" ∧ hasVectors = true ∧ 40 ≤ n)

instance (n : ℕ) (metric : String) (b : Bool) (kind : String) : Decidable (Needs n metric b kind) := by
  unfold Needs; infer_instance

theorem needs_kind {n : ℕ} {metric kind : String} {b : Bool} (h : Needs n metric b kind) : kind ∈ kinds := by
  unfold Needs at h
  unfold kinds
  simp only [List.mem_cons, List.not_mem_nil, or_false] at h ⊢
  tauto

theorem map_of_ok {α β : Type} {r : Py α} {x : α} (f : α → β) (h : r = .ok x) : r.map f = .ok (f x) := by rw [h]; rfl

theorem fromMatrix_ok (env : Env) (kind metric : String) {n : ℕ} (D : Fin n → Fin n → ℝ)
    (hm : metric = "distance" ∨ metric = "similarity")
    (h : kind ∈ ["orig", "mp", "mp_gaussi", "mp_gammai"] ∨ (kind = "ls" ∧ 7 ≤ n) ∨
      (kind = "nicdm" ∧ 7 ≤ n ∧ metric = "distance") ∨ (kind = "snn" ∧ 10 < n)) :
    ∃ S, fromMatrix env kind metric D = .ok S := by
  have hmv : checkValidMetric metric = .ok () := by rcases hm with rfl | rfl <;> rfl
  rcases h with h | ⟨rfl, hn⟩ | ⟨rfl, hn, rfl⟩ | ⟨rfl, hn⟩
  · simp only [List.mem_cons, List.not_mem_nil, or_false] at h
    rcases h with rfl | rfl | rfl | rfl
    · exact ⟨_, rfl⟩
    · obtain ⟨R, hR⟩ := (MPEmp.C20_full_succeeds_iff env.order (fun i j => (.fin (D i j) : XR ℝ)) false metric none 0).2
        ⟨hm, by simp, by simp⟩
      exact ⟨_, map_of_ok _ hR⟩
    · have : ∃ r, MPPar.gaussi env.dists (.mat false n n D) metric 0 30 none none = .ok r := by
        unfold MPPar.gaussi PyMat.checkSquare
        simp only [dif_pos, hmv]
        exact ⟨_, rfl⟩
      obtain ⟨r, hr⟩ := this
      exact ⟨_, map_of_ok _ hr⟩
    · have : ∃ r, MPPar.gammai env.dists (.mat false n n D) metric 30 none = .ok r := by
        unfold MPPar.gammai PyMat.checkSquare
        simp only [dif_pos, hmv]
        exact ⟨_, rfl⟩
      obtain ⟨r, hr⟩ := this
      exact ⟨_, map_of_ok _ hr⟩
  · obtain ⟨M, hM⟩ := LS.C71_valid_partial env.ls D 7 (by norm_num) hn 1 (Or.inr le_rfl) metric hm
    exact ⟨_, map_of_ok _ hM⟩
  · have hM : ∃ r, LS.nicdm env.ls (.mat false n n (LS.toXR D)) 7 "distance" none 1 = .ok r := by
      rw [LS.nicdm_dense, LS.nicdmCore_ok env.ls _ _ _ _ (by simpa [LS.trainInd] using hn)]
      exact ⟨_, rfl⟩
    obtain ⟨r, hr⟩ := hM
    exact ⟨_, map_of_ok _ hr⟩
  · obtain ⟨N, -, hN⟩ := SNN.C34_formula env.snn (fun i j => (.fin (D i j) : XR ℝ)) D (fun _ _ _ => rfl) 10 (by norm_num) hn
      metric hm 1
    exact ⟨_, map_of_ok _ hN⟩

theorem fromVectors_ok (env : Env) (kind : String) {n d : ℕ} (X : Fin n → Fin d → ℝ) (hn : 0 < n) (hd : 0 < d)
    (h : kind ∈ ["cent", "wcent", "dsg"] ∨ (kind = "dsl" ∧ 10 < n) ∨ (kind = "lcent" ∧ 40 ≤ n)) :
    ∃ S, fromVectors env kind (some ⟨n, d, X⟩) = .ok S := by
  rcases h with h | ⟨rfl, h⟩ | ⟨rfl, h⟩
  · simp only [List.mem_cons, List.not_mem_nil, or_false] at h
    rcases h with rfl | rfl | rfl
    · have : ∃ r, Cent.centering X "vector" none = .ok r := by
        unfold Cent.centering
        rw [if_neg (by decide), if_pos rfl]
        exact ⟨_, rfl⟩
      obtain ⟨r, hr⟩ := this
      exact ⟨_, map_of_ok (fun C => PyMat.mat false n n (cosineDistance C)) hr⟩
    · have : ∃ r, Cent.weightedCentering X "cosine" 1 none = .ok r := ⟨_, rfl⟩
      obtain ⟨r, hr⟩ := this
      exact ⟨_, map_of_ok (fun C => PyMat.mat false n n (cosineDistance C)) hr⟩
    · exact ⟨_, map_of_ok _ (Cent.C40_formula X hn hd)⟩
  · obtain ⟨N, -, hN⟩ := Cent.C41_formula env.snn X 10 (by norm_num) h hd
    exact ⟨_, map_of_ok _ (hN 1)⟩
  · obtain ⟨N, -, hN⟩ := Cent.C87_formula env.snn X X 40 (by norm_num) h 1 zero_le_one
    exact ⟨_, map_of_ok _ (hN 1)⟩

theorem untype_of_ok {α : Type} {r : Py α} {x : α} (h : r = .ok x) : untype r = .ok x := by rw [h]; rfl

theorem secondary_ok (env : Env) {n : ℕ} (D : Fin n → Fin n → ℝ) (classes : Option (Σ l : ℕ, Fin l → ℤ))
    (vectors : Option (Σ l d : ℕ, Fin l → Fin d → ℝ)) (metric : String)
    (hm : metric = "distance" ∨ metric = "similarity") (dim : Option (XR ℝ)) (exps : List Experiment)
    (hv : ∀ l d X, vectors = some ⟨l, d, X⟩ → n = l ∧ 0 < n ∧ 0 < d) (kind : String)
    (h : Needs n metric vectors.isSome kind) :
    ∃ S, secondary env ⟨n, n, D, classes, vectors, metric, dim, exps⟩ kind = .ok S := by
  unfold secondary
  have hcase : (kind ∈ ["orig", "mp", "mp_gaussi", "mp_gammai"] ∨ (kind = "ls" ∧ 7 ≤ n) ∨
      (kind = "nicdm" ∧ 7 ≤ n ∧ metric = "distance") ∨ (kind = "snn" ∧ 10 < n)) ∨
      (vectors.isSome = true ∧
        (kind ∈ ["cent", "wcent", "dsg"] ∨ (kind = "dsl" ∧ 10 < n) ∨ (kind = "lcent" ∧ 40 ≤ n))) := by
    unfold Needs at h
    tauto
  rcases hcase with h | ⟨hs, h'⟩
  · have hk : kind ∉ ["cent", "wcent", "lcent", "dsg", "dsl"] := by
      simp only [List.mem_cons, List.not_mem_nil, or_false] at h
      rcases h with (rfl | rfl | rfl | rfl) | ⟨rfl, _⟩ | ⟨rfl, _⟩ | ⟨rfl, _⟩ <;> decide
    rw [if_neg hk]
    obtain ⟨S, hS⟩ := fromMatrix_ok env kind metric D hm h
    exact ⟨S, untype_of_ok hS⟩
  · have hk : kind ∈ ["cent", "wcent", "lcent", "dsg", "dsl"] := by
      simp only [List.mem_cons, List.not_mem_nil, or_false] at h' ⊢
      tauto
    rw [if_pos hk]
    rcases vectors with _ | ⟨l, d, X⟩
    · cases hs
    · obtain ⟨rfl, hn, hd⟩ := hv l d X rfl
      exact fromVectors_ok env kind X hn hd h'

/-! ### C155: analyses which run to the end -/

theorem intrinsic_ok (env : Env) {n d : ℕ} (X : Fin n → Fin d → ℝ) (hn : 12 < n) (hd : 0 < d) :
    ∃ v, IntDim.intrinsicDimension env.lex X 6 12 "mackay" "vector" none 5000 = .ok v := by
  unfold IntDim.intrinsicDimension
  rw [if_neg (by simp), if_neg (by omega), if_pos rfl, if_neg (by omega)]
  exact ⟨_, rfl⟩

/-- **C155**, the part which holds: the analysis of a non-empty square matrix of distances or similarities, with matching labels (or none) and
more than twelve matching vectors (or none), runs to the end if all neighbourhood sizes are non-negative and every requested method has
what its default parameters need: vectors for the centering and DisSim methods, at least 7 points for local scaling and NICDM (and distances
for the latter), more than 10 points for SNN and DisSim Local, and 40 points for localized centering. -/
theorem C155_succeeds_partial (env : Env) {n : ℕ} (hn : 0 < n) (D : Fin n → Fin n → ℝ) (y : Option (Fin n → ℤ))
    (vectors : Option (Σ d : ℕ, Fin n → Fin d → ℝ)) (hv : ∀ v, vectors = some v → 12 < n ∧ 0 < v.1) (metric : String)
    (hm : metric = "distance" ∨ metric = "similarity") (names : List String) (hne : names ≠ [])
    (hneeds : ∀ kind ∈ names, Needs n metric vectors.isSome kind) (hubK knnK : List ℤ) (hk : ∀ k ∈ hubK, 0 ≤ k) :
    ∃ a', analyze env (.init D (y.map (fun y => ⟨n, y⟩)) (vectors.map (fun v => ⟨n, v.1, v.2⟩)) metric)
      (",".intercalate names) hubK knnK = (a', none) := by
  set a := HubnessAnalysis.init D (y.map (fun y => ⟨n, y⟩)) (vectors.map (fun v => ⟨n, v.1, v.2⟩)) metric with ha
  have hc : ∀ s ∈ names, ',' ∉ s.toList := by
    intro s hs
    have := needs_kind (hneeds s hs)
    revert this
    unfold kinds
    simp only [List.mem_cons, List.not_mem_nil, or_false]
    rintro (rfl | rfl | rfl | rfl | rfl | rfl | rfl | rfl | rfl | rfl | rfl | rfl) <;> decide
  have hvec : ∀ l d X, a.vectors = some ⟨l, d, X⟩ → n = l ∧ 12 < n ∧ 0 < d := by
    intro l d X h
    rcases vectors with _ | ⟨d', X'⟩
    · cases h
    · simp only [ha, HubnessAnalysis.init, Option.map_some, Option.some.injEq, Sigma.mk.injEq] at h
      obtain ⟨rfl, h⟩ := h
      have h := eq_of_heq h
      simp only [Sigma.mk.injEq] at h
      obtain ⟨rfl, -⟩ := h
      exact ⟨rfl, hv _ rfl⟩
  have hexp : ∀ kind ∈ names, ∀ t, ∃ e, experiment env a hubK knnK t kind = .ok e := by
    intro kind hkind t
    have hval : Valid a kind := by
      refine ⟨rfl, hm, needs_kind (hneeds kind hkind), ?_, ?_⟩
      · intro l y' h
        rcases y with _ | y
        · cases h
        · simp only [ha, HubnessAnalysis.init, Option.map_some, Option.some.injEq, Sigma.mk.injEq] at h
          exact h.1
      · intro l d X h
        exact (hvec l d X h).1
    obtain ⟨S, hS⟩ := secondary_ok env D a.classes a.vectors metric hm none []
      (fun l d X h => ⟨(hvec l d X h).1, hn, (hvec l d X h).2.2⟩) kind (by
        have := hneeds kind hkind
        simpa [ha, HubnessAnalysis.init] using this)
    exact experiment_ok env a hubK knnK t kind hval hn hk S hS
  rcases hr : analyze env a (",".intercalate names) hubK knnK with ⟨a', err⟩
  cases err with
  | none => exact ⟨a', rfl⟩
  | some e =>
    exfalso
    rcases analyze_spec env a a' _ hubK knnK _ hr with ⟨_, e, l, d, X, _, h1, h2⟩ | ⟨done, rest, new, h1, -, -, -, -, h5⟩
    · obtain ⟨-, h12, hd⟩ := hvec l d X h1
      obtain ⟨rfl, -, -⟩ := hvec l d X h1
      obtain ⟨v, hv⟩ := intrinsic_ok env X h12 hd
      rw [hv] at h2
      cases h2
    · rw [split_join names hne hc] at h1
      rcases h5 with ⟨-, h⟩ | ⟨kind, rest', e', rfl, -, h⟩
      · cases h
      · obtain ⟨e2, he⟩ := hexp kind (by rw [h1]; simp) done.length
        rw [he] at h
        cases h

theorem loop_stops (env : Env) (hubK knnK : List ℤ) (kind : String) (post : List String) (err : PyErr) :
    ∀ (pre : List String) (t : ℕ) (a : HubnessAnalysis),
    (∀ s ∈ pre, ∀ t, ∃ e, experiment env a hubK knnK t s = .ok e) →
    (∀ t, experiment env a hubK knnK t kind = .error err) →
    ∃ a', loop env hubK knnK t (pre ++ kind :: post) a = (a', some err) ∧
      a'.experiments.map Experiment.kind = a.experiments.map Experiment.kind ++ pre := by
  intro pre
  induction pre with
  | nil =>
    intro t a _ he
    refine ⟨a, ?_, by simp⟩
    simp only [List.nil_append, loop, he]
  | cons s pre ih =>
    intro t a hpre he
    obtain ⟨x, hx⟩ := hpre s (by simp) t
    obtain ⟨a', h1, h2⟩ := ih (t + 1) { a with experiments := a.experiments ++ [x] }
      (fun s' hs' t' => hpre s' (by simp [hs']) t') he
    refine ⟨a', ?_, ?_⟩
    · simp only [List.cons_append, loop, hx]
      exact h1
    · rw [h2]
      have := (experiment_inv hx).name
      simp [this]

theorem split_default : split defaultExperiments = ["orig", "mp", "mp_gaussi", "nicdm", "cent", "dsg"] := by
  have : defaultExperiments = ",".intercalate ["orig", "mp", "mp_gaussi", "nicdm", "cent", "dsg"] := by decide +kernel
  rw [this]
  exact split_join _ (by simp) (by decide +kernel)

/-- **C155 is violated**: with a distance matrix (and labels, or none) alone, the default list of experiments always ends with an
`AttributeError`: the fifth method, centering, needs vectors. -/
theorem C155_default_violated (env : Env) {n : ℕ} (hn : 7 ≤ n) (D : Fin n → Fin n → ℝ) (y : Option (Fin n → ℤ)) :
    ∃ a', analyze env (.init D (y.map (fun y => ⟨n, y⟩)) none "distance") defaultExperiments defaultHubK defaultKnnK
        = (a', some .attributeError) ∧ a'.experiments.map Experiment.kind = ["orig", "mp", "mp_gaussi", "nicdm"] := by
  set a := HubnessAnalysis.init D (y.map (fun y => ⟨n, y⟩)) none "distance" with ha
  have hval : ∀ kind ∈ kinds, Valid a kind := by
    intro kind hkind
    refine ⟨rfl, Or.inl rfl, hkind, ?_, ?_⟩
    · intro l y' h
      rcases y with _ | y
      · cases h
      · simp only [ha, HubnessAnalysis.init, Option.map_some, Option.some.injEq, Sigma.mk.injEq] at h
        exact h.1
    · intro l d X h
      cases h
  have h := loop_stops env defaultHubK defaultKnnK "cent" ["dsg"] .attributeError ["orig", "mp", "mp_gaussi", "nicdm"] 0
    { a with intrinsicDim := none } (by
      intro s hs t
      have hneeds : Needs n "distance" false s := by
        simp only [List.mem_cons, List.not_mem_nil, or_false] at hs
        unfold Needs
        rcases hs with rfl | rfl | rfl | rfl <;> simp [hn]
      obtain ⟨S, hS⟩ := secondary_ok env D a.classes none "distance" (Or.inl rfl) none [] (by simp) s hneeds
      exact experiment_ok env a _ _ t s (hval s (needs_kind hneeds)) (by change 0 < n; omega) (by decide) S hS) (by
      intro t
      change experiment env a _ _ t "cent" = _
      unfold experiment
      refine ok_bind ((checks_ok_iff a "cent").2 (hval "cent" (by decide))) ?_
      have : secondary env a "cent" = .error .attributeError := rfl
      rw [this]
      rfl)
  obtain ⟨a', h1, h2⟩ := h
  refine ⟨a', ?_, h2⟩
  unfold analyze
  rw [split_default]
  exact h1

/-! ### C156: similarities -/

/-- **C156 is violated**: the default list of experiments cannot be used with similarities, even if there are vectors: NICDM, the fourth
method, raises `NotImplementedError`. -/
theorem C156_default_violated (env : Env) {n : ℕ} (D : Fin n → Fin n → ℝ) (y : Option (Fin n → ℤ))
    (vectors : Option (Σ d : ℕ, Fin n → Fin d → ℝ)) (hn : 0 < n) (hv : ∀ v, vectors = some v → 12 < n ∧ 0 < v.1) :
    ∃ a', analyze env (.init D (y.map (fun y => ⟨n, y⟩)) (vectors.map (fun v => ⟨n, v.1, v.2⟩)) "similarity")
        defaultExperiments defaultHubK defaultKnnK = (a', some .notImplementedError) ∧
      a'.experiments.map Experiment.kind = ["orig", "mp", "mp_gaussi"] := by
  set a := HubnessAnalysis.init D (y.map (fun y => ⟨n, y⟩)) (vectors.map (fun v => ⟨n, v.1, v.2⟩)) "similarity" with ha
  have hvec : ∀ l d X, a.vectors = some ⟨l, d, X⟩ → n = l ∧ 12 < n ∧ 0 < d := by
    intro l d X h
    rcases vectors with _ | ⟨d', X'⟩
    · cases h
    · simp only [ha, HubnessAnalysis.init, Option.map_some, Option.some.injEq, Sigma.mk.injEq] at h
      obtain ⟨rfl, h⟩ := h
      have h := eq_of_heq h
      simp only [Sigma.mk.injEq] at h
      obtain ⟨rfl, -⟩ := h
      exact ⟨rfl, hv _ rfl⟩
  have hval : ∀ kind ∈ kinds, Valid a kind := by
    intro kind hkind
    refine ⟨rfl, Or.inr rfl, hkind, ?_, fun l d X h => (hvec l d X h).1⟩
    intro l y' h
    rcases y with _ | y
    · cases h
    · simp only [ha, HubnessAnalysis.init, Option.map_some, Option.some.injEq, Sigma.mk.injEq] at h
      exact h.1
  have h := fun dim => loop_stops env defaultHubK defaultKnnK "nicdm" ["cent", "dsg"] .notImplementedError ["orig", "mp", "mp_gaussi"] 0
    { a with intrinsicDim := dim } (by
      intro s hs t
      have hneeds : Needs n "similarity" a.vectors.isSome s := by
        simp only [List.mem_cons, List.not_mem_nil, or_false] at hs
        unfold Needs
        rcases hs with rfl | rfl | rfl <;> simp
      obtain ⟨S, hS⟩ := secondary_ok env D a.classes a.vectors "similarity" (Or.inr rfl) none []
        (fun l d X h => ⟨(hvec l d X h).1, hn, (hvec l d X h).2.2⟩) s hneeds
      exact experiment_ok env a _ _ t s (hval s (needs_kind hneeds)) hn (by decide) S hS) (by
      intro t
      change experiment env a _ _ t "nicdm" = _
      unfold experiment
      refine ok_bind ((checks_ok_iff a "nicdm").2 (hval "nicdm" (by decide))) ?_
      have : secondary env a "nicdm" = .error .notImplementedError := by
        have := (LS.C135_not_implemented env.ls false n (fun i j => .fin (D i j)) 7 7 none 1).1
        change untype ((LS.nicdm env.ls (.mat false n n (fun i j => .fin (D i j))) 7 "similarity" none 1).map square) = _
        rw [this]
        rfl
      rw [this]
      rfl)
  rcases hvs : a.vectors with _ | ⟨l, d, X⟩
  · obtain ⟨a', h1, h2⟩ := h none
    refine ⟨a', ?_, h2⟩
    unfold analyze
    rw [hvs] at h1
    rw [split_default, hvs]
    exact h1
  · obtain ⟨rfl, h12, hd⟩ := hvec l d X hvs
    obtain ⟨v, hv⟩ := intrinsic_ok env X h12 hd
    obtain ⟨a', h1, h2⟩ := h (some v)
    refine ⟨a', ?_, h2⟩
    unfold analyze
    rw [hvs] at h1
    rw [split_default, hvs]
    simp only [hv]
    exact h1

theorem dsg_secondary (env : Env) {n d : ℕ} (D : Fin n → Fin n → ℝ) (X : Fin n → Fin d → ℝ)
    (classes : Option (Σ l : ℕ, Fin l → ℤ)) (metric : String) (hn : 0 < n) (hd : 0 < d) :
    secondary env (.init D classes (some ⟨n, d, X⟩) metric) "dsg" = .ok (.mat false n n (fun i j => .fin (-2 * Spec.inner
      (fun f => X i f - Spec.centroid Finset.univ X f) (fun f => X j f - Spec.centroid Finset.univ X f)))) := by
  change (Cent.disSimGlobal X none).map (fun r => PyMat.mat false n r.1 r.2) = _
  rw [Cent.C40_formula X hn hd]
  rfl

/-- What an experiment on finite secondary distances counts: lists of other points, none of which is farther than an unlisted point. -/
theorem counted (env : Env) (a : HubnessAnalysis) (hubK knnK : List ℤ) (t : ℕ) (kind : String) (e : Experiment)
    (h : experiment env a hubK knnK t kind = .ok e) (v : Fin a.n → Fin a.n → ℝ)
    (hS : secondary env a kind = .ok (.mat false a.n a.n (fun i j => .fin (v i j)))) (k : ℤ) (hk : k ∈ hubK) :
    ∃ L : Fin a.n → List (Fin a.n), e.hubness k = some (Spec.hubness L) ∧ e.antiHubs k = some (Spec.antiHubs L) ∧
      e.maxHub k = some (Spec.maxHub L) ∧ (∀ i, (L i).Nodup ∧ i ∉ L i ∧ ((L i).length : ℤ) = min k ((a.n : ℤ) - 1)) ∧
      ∀ i, ∀ j ∈ L i, ∀ b ∉ L i, b ≠ i → if a.metric = "distance" then v i j ≤ v i b else v i b ≤ v i j := by
  have hf := experiment_inv h
  have hM : e.secondary = .mat false a.n a.n (fun i j => .fin (v i j)) := by
    have := hf.sec
    rw [hS] at this
    exact (Except.ok.inj this).symm
  have hs := hf.hub k hk
  rw [hM] at hs
  obtain ⟨L, h1, h2, hn, h3, h4, h5⟩ := stored_numbers hf.valid.metric _ hs
  have hself := not_self a.metric hf.valid.metric _ (fun _ _ _ => rfl) k L h1
  refine ⟨L, h3, h4, h5, fun i => ⟨(h1 i).distinct, hself i, ?_⟩, fun i j hj b hb hbi => ?_⟩
  · rw [(h1 i).length]
    omega
  · have hji : i ≠ j := by rintro rfl; exact hself i hj
    have heff : ∀ c : Fin a.n, i ≠ c → Spec.effective a.metric (fun i j => (XR.fin (v i j) : XR ℝ)) i c = .fin (v i c) := by
      intro c hc
      unfold Spec.effective
      rw [if_neg]
      rintro (⟨-, h⟩ | h | ⟨h, -⟩)
      · exact hc (Fin.ext h)
      · cases h
      · exact h rfl
    have hb := (h1 i).best j hj b hb
    rw [heff j hji, heff b (Ne.symm hbi)] at hb
    unfold Spec.closer at hb
    split_ifs at hb ⊢ with hd
    · simpa using hb
    · simpa using hb

/-- **C156 is violated**: an analysis of similarities evaluates DisSim Global as if its values were similarities, although they are
dissimilarities: the lists of "nearest" neighbours hold the points with the *smallest* inner products of the centred vectors. -/
theorem C156_dsg_violated (env : Env) {n d : ℕ} (D : Fin n → Fin n → ℝ) (X : Fin n → Fin d → ℝ)
    (y : Option (Fin n → ℤ)) (hn : 0 < n) (hd : 0 < d) (hubK knnK : List ℤ) (t : ℕ) (hk : ∀ k ∈ hubK, 0 ≤ k) :
    ∃ e, experiment env (.init D (y.map (fun y => ⟨n, y⟩)) (some ⟨n, d, X⟩) "similarity") hubK knnK t "dsg" = .ok e ∧
      ∀ k ∈ hubK, ∃ L : Fin n → List (Fin n), e.hubness k = some (Spec.hubness L) ∧ e.antiHubs k = some (Spec.antiHubs L) ∧
        e.maxHub k = some (Spec.maxHub L) ∧ (∀ i, (L i).Nodup ∧ i ∉ L i ∧ ((L i).length : ℤ) = min k ((n : ℤ) - 1)) ∧
        ∀ i, ∀ j ∈ L i, ∀ b ∉ L i, b ≠ i →
          Spec.inner (fun f => X i f - Spec.centroid Finset.univ X f) (fun f => X j f - Spec.centroid Finset.univ X f) ≤
          Spec.inner (fun f => X i f - Spec.centroid Finset.univ X f) (fun f => X b f - Spec.centroid Finset.univ X f) := by
  have hval : Valid (HubnessAnalysis.init D (y.map (fun y => ⟨n, y⟩)) (some ⟨n, d, X⟩) "similarity") "dsg" := by
    refine ⟨rfl, Or.inr rfl, by decide, ?_, ?_⟩
    · intro l y' h
      rcases y with _ | y
      · cases h
      · simp only [HubnessAnalysis.init, Option.map_some, Option.some.injEq, Sigma.mk.injEq] at h
        exact h.1
    · intro l d' X' h
      simp only [HubnessAnalysis.init, Option.some.injEq, Sigma.mk.injEq] at h
      exact h.1
  obtain ⟨e, he⟩ := experiment_ok env _ hubK knnK t "dsg" hval hn hk _ (dsg_secondary env D X _ "similarity" hn hd)
  refine ⟨e, he, fun k hk => ?_⟩
  obtain ⟨L, h1, h2, h3, h4, h5⟩ := counted env _ hubK knnK t "dsg" e he _ (dsg_secondary env D X _ "similarity" hn hd) k hk
  refine ⟨L, h1, h2, h3, h4, fun i j hj b hb hbi => ?_⟩
  have := h5 i j hj b hb hbi
  rw [if_neg (by simp [HubnessAnalysis.init])] at this
  linarith

/-- **C156**, the part which holds: for distances, the lists evaluated for DisSim Global hold the points with the largest inner products of
the centred vectors, and an analysis of the original similarities evaluates lists of the most similar points. -/
theorem C156_dsg_partial (env : Env) {n d : ℕ} (D : Fin n → Fin n → ℝ) (X : Fin n → Fin d → ℝ)
    (classes : Option (Σ l : ℕ, Fin l → ℤ)) (hn : 0 < n) (hd : 0 < d) (hubK knnK : List ℤ) (t : ℕ) (e : Experiment)
    (he : experiment env (.init D classes (some ⟨n, d, X⟩) "distance") hubK knnK t "dsg" = .ok e) (k : ℤ) (hk : k ∈ hubK) :
    ∃ L : Fin n → List (Fin n), e.hubness k = some (Spec.hubness L) ∧ e.antiHubs k = some (Spec.antiHubs L) ∧
      e.maxHub k = some (Spec.maxHub L) ∧ (∀ i, (L i).Nodup ∧ i ∉ L i ∧ ((L i).length : ℤ) = min k ((n : ℤ) - 1)) ∧
      ∀ i, ∀ j ∈ L i, ∀ b ∉ L i, b ≠ i →
        Spec.inner (fun f => X i f - Spec.centroid Finset.univ X f) (fun f => X b f - Spec.centroid Finset.univ X f) ≤
        Spec.inner (fun f => X i f - Spec.centroid Finset.univ X f) (fun f => X j f - Spec.centroid Finset.univ X f) := by
  obtain ⟨L, h1, h2, h3, h4, h5⟩ := counted env _ hubK knnK t "dsg" e he _ (dsg_secondary env D X _ "distance" hn hd) k hk
  refine ⟨L, h1, h2, h3, h4, fun i j hj b hb hbi => ?_⟩
  have := h5 i j hj b hb hbi
  rw [if_pos (by simp [HubnessAnalysis.init])] at this
  linarith

theorem C156_orig_partial (env : Env) {n : ℕ} (D : Fin n → Fin n → ℝ) (classes : Option (Σ l : ℕ, Fin l → ℤ))
    (vectors : Option (Σ l d : ℕ, Fin l → Fin d → ℝ)) (metric : String) (hubK knnK : List ℤ) (t : ℕ) (e : Experiment)
    (he : experiment env (.init D classes vectors metric) hubK knnK t "orig" = .ok e) (k : ℤ) (hk : k ∈ hubK) :
    ∃ L : Fin n → List (Fin n), e.hubness k = some (Spec.hubness L) ∧ e.antiHubs k = some (Spec.antiHubs L) ∧
      e.maxHub k = some (Spec.maxHub L) ∧ (∀ i, (L i).Nodup ∧ i ∉ L i ∧ ((L i).length : ℤ) = min k ((n : ℤ) - 1)) ∧
      ∀ i, ∀ j ∈ L i, ∀ b ∉ L i, b ≠ i → if metric = "distance" then D i j ≤ D i b else D i b ≤ D i j :=
  counted env _ hubK knnK t "orig" e he D rfl k hk

/-! ### C157: renumbering the points -/

theorem perm_of_getElem {n : ℕ} (l l' : List ℕ) (hl : l.length = n) (hl' : l'.length = n) (π : Equiv.Perm (Fin n))
    (h : ∀ j : Fin n, l'[j.val]? = l[(π j).val]?) : l'.Perm l := by
  have e1 : l = List.ofFn (fun j : Fin n => l.getD j.val 0) := by
    apply List.ext_getElem?
    intro i
    rw [List.getElem?_ofFn]
    split_ifs with hi
    · simp [List.getElem?_eq_getElem, List.getD, hl, hi]
    · rw [List.getElem?_eq_none (by omega)]
  have e2 : l' = List.ofFn ((fun j : Fin n => l.getD j.val 0) ∘ π) := by
    apply List.ext_getElem?
    intro i
    rw [List.getElem?_ofFn]
    split_ifs with hi
    · have := h ⟨i, hi⟩
      rw [this]
      have hp : (π ⟨i, hi⟩).val < l.length := by rw [hl]; exact (π ⟨i, hi⟩).isLt
      simp [List.getElem?_eq_getElem, List.getD, hp]
    · rw [List.getElem?_eq_none (by omega)]
  rw [e2]
  conv_rhs => rw [e1]
  exact Equiv.Perm.ofFn_comp_perm π _

theorem foldr_max_perm {l l' : List ℕ} (h : l'.Perm l) : l'.foldr max 0 = l.foldr max 0 :=
  h.foldr_eq 0

/-- **C157**: renumbering the points of a distance or similarity matrix without ties changes no number of the experiment on the original
distances: hubness, anti-hubs and largest hub depend on the data only, whatever sorting of ties, random numbers and schedules are used. -/
theorem C157_relabelling (env env' : Env) {n : ℕ} (D : Fin n → Fin n → ℝ) (metric : String)
    (htf : Hubness.TieFree metric (fun i j => (.fin (D i j) : XR ℝ))) (π : Equiv.Perm (Fin n))
    (classes classes' : Option (Σ l : ℕ, Fin l → ℤ)) (vectors vectors' : Option (Σ l d : ℕ, Fin l → Fin d → ℝ))
    (hubK hubK' knnK knnK' : List ℤ) (t t' : ℕ) (e e' : Experiment)
    (h : experiment env (.init D classes vectors metric) hubK knnK t "orig" = .ok e)
    (h' : experiment env' (.init (fun i j => D (π i) (π j)) classes' vectors' metric) hubK' knnK' t' "orig" = .ok e')
    (k : ℤ) (hk : k ∈ hubK) (hk' : k ∈ hubK') :
    e'.hubness k = e.hubness k ∧ e'.antiHubs k = e.antiHubs k ∧ e'.maxHub k = e.maxHub k := by
  have hf := experiment_inv h
  have hf' := experiment_inv h'
  have hM : e.secondary = .mat false n n (fun i j => .fin (D i j)) := (Except.ok.inj hf.sec).symm
  have hM' : e'.secondary = .mat false n n (fun i j => .fin (D (π i) (π j))) := (Except.ok.inj hf'.sec).symm
  obtain ⟨rnd, m, r, h0, h1, h2, h3⟩ := hf.hub k hk
  obtain ⟨rnd', m', r', h0', h1', h2', h3'⟩ := hf'.hub k hk'
  rw [hM] at h0
  rw [hM'] at h0'
  change Hubness.hubness _ _ _ _ k metric 1 false true = _ at h0
  change Hubness.hubness _ _ _ _ k metric 1 false true = _ at h0'
  rw [(Hubness.C01_hubness_argument env.part rnd env.sched k metric 1 false true (by simp)).2.2] at h0
  rw [(Hubness.C01_hubness_argument env'.part rnd' env'.sched k metric 1 false true (by simp)).2.2] at h0'
  obtain ⟨q, hr, h0⟩ := map_ok h0
  obtain ⟨q', hr', h0'⟩ := map_ok h0'
  obtain rfl : m = n := by injection h0
  obtain rfl : r = q := by injection h0
  obtain rfl : m' = m := by injection h0'
  obtain rfl : r' = q' := by injection h0'
  obtain ⟨-, -, hN, hS⟩ := Hubness.C07_relabelling env.part env'.part rnd rnd' env.sched env'.sched false false
    _ k metric 1 1 false false true true htf π r r' hr hr'
  have hc : Hubness.Covered 1 metric m' m' := by simp [Hubness.Covered]
  have l1 := (Hubness.C03_k_occurrence env.part rnd env.sched false _ k metric 1 false true hc r hr).1
  have l2 := (Hubness.C03_k_occurrence env'.part rnd' env'.sched false _ k metric 1 false true hc r' hr').1
  have hp := perm_of_getElem r.Nk r'.Nk l1 l2 π hN
  refine ⟨?_, ?_, ?_⟩
  · rw [h1, h1', hS]
  · rw [h2, h2', (hp.filter _).length_eq]
    rfl
  · rw [h3, h3', foldr_max_perm hp]
    rfl

/-- **C157**: nor does it change the Goodman-Kruskal index of symmetric original distances. -/
theorem C157_index (env env' : Env) {n : ℕ} (D : Fin n → Fin n → ℝ) (hsym : ∀ i j, D i j = D j i) (y : Fin n → ℤ)
    (metric : String) (π : Equiv.Perm (Fin n)) (vectors vectors' : Option (Σ l d : ℕ, Fin l → Fin d → ℝ))
    (hubK hubK' knnK knnK' : List ℤ) (t t' : ℕ) (e e' : Experiment)
    (h : experiment env (.init D (some ⟨n, y⟩) vectors metric) hubK knnK t "orig" = .ok e)
    (h' : experiment env' (.init (fun i j => D (π i) (π j)) (some ⟨n, fun i => y (π i)⟩) vectors' metric) hubK' knnK' t' "orig"
      = .ok e') : e'.gk = e.gk := by
  have hf := experiment_inv h
  have hf' := experiment_inv h'
  have hM : e.secondary = .mat false n n (fun i j => .fin (D i j)) := (Except.ok.inj hf.sec).symm
  have hM' : e'.secondary = .mat false n n (fun i j => .fin (D (π i) (π j))) := (Except.ok.inj hf'.sec).symm
  obtain ⟨-, -, g, hg, h1⟩ := hf.knn n y rfl
  obtain ⟨-, -, g', hg', h1'⟩ := hf'.knn n (fun i => y (π i)) rfl
  rw [hM] at hg
  rw [hM'] at hg'
  change GK.index _ _ metric = _ at hg
  change GK.index _ _ metric = _ at hg'
  rw [GK.C17_relabelling (fun i j => (XR.fin (D i j) : XR ℝ)) y metric π (by intro i j; rw [hsym]), hg] at hg'
  rw [h1, h1', Except.ok.inj hg']

/-! ### The statements are not vacuous -/

/-- A concrete environment. -/
noncomputable def exampleEnv : Env where
  part := ArgPart.ofInsertion _
  srt := Knn.ArgSort.ofSort _
  lex := IntDim.LexSort.stable
  dists := MPPar.simple
  ls := LS.stdWorld
  snn := ⟨1, one_pos, ArgPart.ofInsertion _, Knn.ArgSort.ofSort _, fun l => l, fun l => List.Perm.refl l⟩
  order := fun n _ => List.finRange n ×ˢ List.finRange n
  rndHub := fun _ _ _ _ => Equiv.refl _
  rndKnn := fun _ _ => Knn.Rnd.id
  sched := ⟨fun n k => List.finRange n ×ˢ List.finRange k, fun _ _ => List.Perm.refl _⟩

-- C151 to C155: thirteen labelled points on a parabola, all methods but localized centering, twice the same neighbourhood size
example (env : Env) : ∃ a', analyze env
    (.init (fun i j : Fin 13 => |(i.val : ℝ) - j.val| + |(i.val : ℝ) ^ 2 - (j.val : ℝ) ^ 2|)
      ((some (fun i => (i.val : ℤ) % 3)).map (fun y => ⟨13, y⟩))
      ((some ⟨2, fun i f => (i.val : ℝ) ^ (f.val + 1)⟩ : Option (Σ d : ℕ, Fin 13 → Fin d → ℝ)).map (fun v => ⟨13, v.1, v.2⟩)) "distance")
    (",".intercalate ["orig", "mp", "mp_gaussi", "mp_gammai", "ls", "nicdm", "snn", "cent", "wcent", "dsg", "dsl"]) [5, 10, 5]
    [1, 5, 20] = (a', none) :=
  C155_succeeds_partial env (by norm_num) _ _ _ (by
    intro v hv
    cases hv
    exact ⟨by norm_num, by norm_num⟩) _ (Or.inl rfl) _ (by simp) (by
    intro kind hk
    simp only [List.mem_cons, List.not_mem_nil, or_false] at hk
    unfold Needs
    rcases hk with rfl | rfl | rfl | rfl | rfl | rfl | rfl | rfl | rfl | rfl | rfl <;> simp) _ _ (by decide)

-- C157: three points, two of which are exchanged
example (env env' : Env) : ∃ (D : Fin 3 → Fin 3 → ℝ) (e e' : Experiment),
    Hubness.TieFree "distance" (fun i j => (.fin (D i j) : XR ℝ)) ∧
    experiment env (.init D none none "distance") [1] [] 0 "orig" = .ok e ∧
    experiment env' (.init (fun i j => D (Equiv.swap 0 1 i) (Equiv.swap 0 1 j)) none none "distance") [1, 2] [] 4 "orig" = .ok e' := by
  have hv : ∀ D : Fin 3 → Fin 3 → ℝ, Valid (.init D none none "distance") "orig" := fun D =>
    ⟨rfl, Or.inl rfl, by decide, (fun _ _ h => by cases h), (fun _ _ _ h => by cases h)⟩
  let D : Fin 3 → Fin 3 → ℝ := fun i j => ((i.val + 2 * j.val : ℕ) : ℝ)
  obtain ⟨e, he⟩ := experiment_ok env _ [1] [] 0 "orig" (hv D) (by change 0 < 3; norm_num) (by decide) _ rfl
  obtain ⟨e', he'⟩ := experiment_ok env' _ [1, 2] [] 4 "orig" (hv fun i j => D (Equiv.swap 0 1 i) (Equiv.swap 0 1 j))
    (by change 0 < 3; norm_num) (by decide) _ rfl
  refine ⟨D, e, e', ?_, he, he'⟩
  intro i j j' h
  have key : ∀ j, Spec.effective "distance" (fun i j => (.fin (D i j) : XR ℝ)) i j = if i = j then .pinf else .fin (D i j) := by
    intro j
    unfold Spec.effective Spec.far
    simp [XR.isFinite, Fin.ext_iff]
  rw [key, key] at h
  split_ifs at h with h1 h2 h2
  · exact h1.symm.trans h2
  · simp only [XR.fin.injEq, D] at h
    have h : i.val + 2 * j.val = i.val + 2 * j'.val := by exact_mod_cast h
    exact Fin.ext (by omega)

end HubToolbox.Analysis
