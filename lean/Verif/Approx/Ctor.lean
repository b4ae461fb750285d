import Verif.Approx.PredictModel

/-!
# Properties of the constructor
-/

set_option autoImplicit false

namespace HubToolbox

namespace Spec

/-- What the documentation of the constructor calls valid arguments. -/
structure ValidParams (falconn nms : Bool) (p : Approx.Params) : Prop where
  hr : ∀ s, p.hr = some s → s.toUpper = "NONE" ∨ s.toUpper = "MP" ∨ s.toUpper = "MPG" ∨ s.toUpper = "LS" ∨
    s.toUpper = "NICDM" ∨ s.toUpper = "DSL"
  neighbors : ∀ n, p.nNeighbors = some n → 1 ≤ n
  samples : ∀ n, p.nSamples = some n → 1 ≤ n
  sampling : ∀ s, p.sampling = some s → s.toLower = "none" ∨ s.toLower = "random" ∨ s.toLower = "kmeans++" ∨
    (s.toLower = "lsh" ∧ falconn = true) ∨ (s.toLower = "hnsw" ∧ nms = true)
  metric : p.metric = "sqeuclidean" ∨ p.metric = "cosine" ∨ p.metric = "precomputed"
  predictor : p.predictor = "knn"
  jobs : p.nJobs = -1 ∨ 1 ≤ p.nJobs
  verbose : 0 ≤ p.verbose

end Spec

namespace Approx

theorem checkHr_ok (h : Option String) : (∃ r, checkHr h = .ok r) ↔ ∀ s, h = some s → s.toUpper = "NONE" ∨ s.toUpper = "MP" ∨
    s.toUpper = "MPG" ∨ s.toUpper = "LS" ∨ s.toUpper = "NICDM" ∨ s.toUpper = "DSL" := by
  cases h with
  | none => simp [checkHr]
  | some s =>
    simp only [checkHr, Option.some.injEq, forall_eq', List.mem_cons, List.not_mem_nil, or_false]
    split_ifs with h1 h2
    · simp [h1]
    · simp [h2]
    · simp only [reduceCtorEq, exists_false, false_iff]
      tauto

theorem checkSize_ok (n : Option ℤ) : (∃ r, checkSize n = .ok r) ↔ ∀ m, n = some m → 1 ≤ m := by
  cases n with
  | none => simp [checkSize]
  | some m =>
    simp only [checkSize, Option.some.injEq, forall_eq']
    split_ifs with h <;> simp <;> omega

theorem checkSampling_ok (f g : Bool) (h : Option String) : (∃ r, checkSampling f g h = .ok r) ↔ ∀ s, h = some s →
    s.toLower = "none" ∨ s.toLower = "random" ∨ s.toLower = "kmeans++" ∨
    (s.toLower = "lsh" ∧ f = true) ∨ (s.toLower = "hnsw" ∧ g = true) := by
  cases h with
  | none => simp [checkSampling]
  | some s =>
    simp only [checkSampling, Option.some.injEq, forall_eq', List.mem_cons, List.not_mem_nil, or_false]
    by_cases h1 : s.toLower = "none"
    · simp [h1]
    by_cases h2 : s.toLower = "random"
    · simp [h2]
    by_cases h3 : s.toLower = "kmeans++"
    · simp [h3]
    by_cases h4 : s.toLower = "lsh"
    · cases f <;> simp [h4]
    by_cases h5 : s.toLower = "hnsw"
    · cases g <;> simp [h5]
    simp [h1, h2, h3, h4, h5]

/-- The last part of the constructor. -/
theorem construct_char (falconn nms : Bool) (cpuCount : ℤ) (p out : Params) :
    construct falconn nms cpuCount p = .ok out ↔ (∃ u, checkSize p.nNeighbors = .ok u) ∧ (∃ u, checkSize p.nSamples = .ok u) ∧
      (p.metric = "sqeuclidean" ∨ p.metric = "cosine" ∨ p.metric = "precomputed") ∧ p.predictor = "knn" ∧
      (p.nJobs = -1 ∨ 1 ≤ p.nJobs) ∧ 0 ≤ p.verbose ∧ ∃ hr s, checkHr p.hr = .ok hr ∧ checkSampling falconn nms p.sampling = .ok s ∧
        out = { p with hr := hr, sampling := s, nJobs := if p.nJobs = -1 then cpuCount else p.nJobs } := by
  unfold construct
  cases h1 : checkHr p.hr with
  | error e => simp [bind, Except.bind]
  | ok hr =>
  cases h2 : checkSize p.nNeighbors with
  | error e => simp [bind, Except.bind]
  | ok u2 =>
  cases h3 : checkSize p.nSamples with
  | error e => simp [bind, Except.bind]
  | ok u3 =>
  cases h4 : checkSampling falconn nms p.sampling with
  | error e => simp [bind, Except.bind]
  | ok s =>
  have hmem : p.metric ∈ ["sqeuclidean", "cosine", "precomputed"] ↔
      (p.metric = "sqeuclidean" ∨ p.metric = "cosine" ∨ p.metric = "precomputed") := by simp
  have hpred : p.predictor ∈ ["knn"] ↔ p.predictor = "knn" := by simp
  by_cases h5 : p.metric ∈ ["sqeuclidean", "cosine", "precomputed"]
  swap
  · simp only [bind, Except.bind, h5, not_false_eq_true, if_true, throw, throwThe, MonadExceptOf.throw]
    rw [hmem] at h5
    simp [h5]
  by_cases h6 : p.predictor ∈ ["knn"]
  swap
  · simp only [bind, Except.bind, h5, h6, not_false_eq_true, not_true_eq_false, if_true, if_false, throw, throwThe,
      MonadExceptOf.throw, pure, Except.pure]
    rw [hpred] at h6
    simp [h6]
  by_cases h7 : p.nJobs = -1
  · by_cases h8 : p.verbose < 0
    · simp only [bind, Except.bind, h5, h6, h7, h8, not_false_eq_true, not_true_eq_false, if_true, if_false, throw, throwThe,
        MonadExceptOf.throw, pure, Except.pure]
      simp
      omega
    · simp only [bind, Except.bind, h5, h6, h7, h8, not_false_eq_true, not_true_eq_false, if_true, if_false, throw, throwThe,
        MonadExceptOf.throw, pure, Except.pure]
      have h8' : 0 ≤ p.verbose := by omega
      simp [hmem.1 h5, hpred.1 h6, h8', @eq_comm _ out]
  · by_cases h9 : p.nJobs < -1 ∨ p.nJobs = 0
    · simp only [bind, Except.bind, h5, h6, h7, h9, not_false_eq_true, not_true_eq_false, if_true, if_false, throw, throwThe,
        MonadExceptOf.throw, pure, Except.pure]
      simp
      omega
    · have h9' : 1 ≤ p.nJobs := by omega
      by_cases h8 : p.verbose < 0
      · simp only [bind, Except.bind, h5, h6, h7, h9, h8, not_false_eq_true, not_true_eq_false, if_true, if_false, throw, throwThe,
          MonadExceptOf.throw, pure, Except.pure]
        simp
        omega
      · simp only [bind, Except.bind, h5, h6, h7, h8, h9, not_false_eq_true, not_true_eq_false, if_true, if_false, throw, throwThe,
          MonadExceptOf.throw, pure, Except.pure]
        have h8' : 0 ≤ p.verbose := by omega
        simp [hmem.1 h5, hpred.1 h6, h8', h9', @eq_comm _ out]

/-- C138: the constructor accepts exactly the valid arguments. -/
theorem C138_accepts (falconn nms : Bool) (cpuCount : ℤ) (p : Params) :
    (∃ out, construct falconn nms cpuCount p = .ok out) ↔ Spec.ValidParams falconn nms p := by
  simp only [construct_char]
  constructor
  · rintro ⟨out, h1, h2, h3, h4, h5, h6, hr, s, h7, h8, _⟩
    exact ⟨(checkHr_ok _).1 ⟨_, h7⟩, (checkSize_ok _).1 h1, (checkSize_ok _).1 h2, (checkSampling_ok _ _ _).1 ⟨_, h8⟩,
      h3, h4, h5, h6⟩
  · rintro ⟨h1, h2, h3, h4, h5, h6, h7, h8⟩
    obtain ⟨hr, h1⟩ := (checkHr_ok _).2 h1
    obtain ⟨s, h4⟩ := (checkSampling_ok _ _ _).2 h4
    exact ⟨_, (checkSize_ok _).2 h2, (checkSize_ok _).2 h3, h5, h6, h7, h8, hr, s, h1, h4, rfl⟩

/-- C138: upper and lower case make no difference in the names of algorithms. -/
theorem C138_case (falconn nms : Bool) (cpuCount : ℤ) (p q : Params) (hhr : p.hr.map String.toUpper = q.hr.map String.toUpper)
    (hs : p.sampling.map String.toLower = q.sampling.map String.toLower)
    (h : { q with hr := p.hr, sampling := p.sampling } = p) :
    construct falconn nms cpuCount p = construct falconn nms cpuCount q := by
  have e1 : checkHr p.hr = checkHr q.hr := by
    cases hp : p.hr <;> cases hq : q.hr <;> rw [hp, hq] at hhr <;> simp_all [checkHr]
  have e2 : checkSampling falconn nms p.sampling = checkSampling falconn nms q.sampling := by
    cases hp : p.sampling <;> cases hq : q.sampling <;> rw [hp, hq] at hs <;> simp_all [checkSampling]
  unfold construct
  rw [e1, e2]
  cases p; cases q
  simp only [Params.mk.injEq] at h
  obtain ⟨_, rfl, rfl, _, rfl, rfl, rfl, rfl⟩ := h
  rfl

/-- C138: the number of processes of an instance is positive. -/
theorem C138_jobs (falconn nms : Bool) (cpuCount : ℤ) (hc : 1 ≤ cpuCount) (p out : Params)
    (h : construct falconn nms cpuCount p = .ok out) : 1 ≤ out.nJobs ∧ (p.nJobs ≠ -1 → out.nJobs = p.nJobs) := by
  obtain ⟨_, _, _, _, h5, _, hr, s, _, _, rfl⟩ := (construct_char _ _ _ _ _).1 h
  constructor
  · change 1 ≤ if p.nJobs = -1 then cpuCount else p.nJobs
    split_ifs with h <;> omega
  · intro h
    exact if_neg h

theorem toUpper_names : "MP".toUpper = "MP" ∧ "MPG".toUpper = "MPG" ∧ "LS".toUpper = "LS" ∧ "NICDM".toUpper = "NICDM" ∧
    "DSL".toUpper = "DSL" := by decide +kernel

/-- C138 holds for two of the three metrics: whatever the constructor accepts is handled by `fit`. -/
theorem C138_fit_partial (falconn nms : Bool) (cpuCount : ℤ) (p out : Params)
    (h : construct falconn nms cpuCount p = .ok out) (hm : p.metric ≠ "precomputed") :
    ∃ b, fitChecks out = .ok b ∧ (out.hr = none ↔ b = .withoutHr) := by
  obtain ⟨_, _, h3, _, _, _, hr, s, h1, h4, rfl⟩ := (construct_char _ _ _ _ _).1 h
  have hknown : p.metric = "sqeuclidean" ∨ p.metric = "cosine" := by tauto
  have hfix : ∃ f, isFixed s = .ok f := by
    cases hs : p.sampling with
    | none => rw [hs] at h4; cases h4; exact ⟨_, rfl⟩
    | some t =>
      rw [hs] at h4
      simp only [checkSampling] at h4
      split_ifs at h4 with h5 h6 h7 h8
      · cases h4; exact ⟨_, rfl⟩
      · cases h4
        simp only [List.mem_cons, List.not_mem_nil, or_false, not_not] at h6
        rcases h6 with h6 | h6 | h6 | h6 <;> simp [isFixed, h6]
  obtain ⟨f, hf⟩ := hfix
  have hbr : ∃ b, branch hr = .ok b ∧ (hr = none ↔ b = .withoutHr) := by
    cases hs : p.hr with
    | none => rw [hs] at h1; cases h1; exact ⟨_, rfl, by simp⟩
    | some t =>
      rw [hs] at h1
      simp only [checkHr] at h1
      obtain ⟨u1, u2, u3, u4, u5⟩ := toUpper_names
      split_ifs at h1 with h5 h6
      · cases h1; exact ⟨_, rfl, by simp⟩
      · cases h1
        simp only [List.mem_cons, List.not_mem_nil, or_false] at h6
        rcases h6 with h6 | h6 | h6 | h6 | h6 <;> rw [h6]
        · exact ⟨.mp, by simp [branch, u1], by simp⟩
        · exact ⟨.mpg, by simp [branch, u2], by simp⟩
        · exact ⟨.ls, by simp [branch, u3], by simp⟩
        · exact ⟨.ls, by simp [branch, u4], by simp⟩
        · exact ⟨.dsl, by simp [branch, u5], by simp⟩
  obtain ⟨b, hb, hb'⟩ := hbr
  refine ⟨b, ?_, hb'⟩
  unfold fitChecks
  simp only [hb, hf, bind, Except.bind, hknown, not_true_eq_false, and_false, if_false]
  cases b <;> rfl

/-- C138 is violated for metric `'precomputed'`: the constructor accepts it, but no hubness reduction except Mutual Proximity
with empirical distributions can be fitted. -/
theorem C138_precomputed_violated (falconn nms : Bool) (cpuCount : ℤ) (hr : String)
    (hhr : hr ∈ ["MPG", "LS", "NICDM", "DSL"]) (s : String) (hs : s ∈ ["random", "kmeans++"]) :
    ∃ out e, construct falconn nms cpuCount ⟨some hr, some 5, some 100, some s, "precomputed", "knn", 1, 0⟩ = .ok out ∧
      fitChecks out = .error e := by
  obtain ⟨u1, u2, u3, u4, u5⟩ := toUpper_names
  have l1 : "random".toLower = "random" ∧ "kmeans++".toLower = "kmeans++" := by decide +kernel
  have h1 : checkHr (some hr) = .ok (some hr) := by
    simp only [List.mem_cons, List.not_mem_nil, or_false] at hhr
    rcases hhr with rfl | rfl | rfl | rfl <;> simp [checkHr, u2, u3, u4, u5]
  have h2 : checkSampling falconn nms (some s) = .ok (some s) := by
    simp only [List.mem_cons, List.not_mem_nil, or_false] at hs
    rcases hs with rfl | rfl <;> simp [checkSampling, l1.1, l1.2]
  have hf : isFixed (some s) = .ok true := by
    simp only [isFixed, if_pos hs]
  have key : ∃ e, fitChecks ⟨some hr, some 5, some 100, some s, "precomputed", "knn", 1, 0⟩ = .error e := by
    simp only [List.mem_cons, List.not_mem_nil, or_false] at hhr
    rcases hhr with rfl | rfl | rfl | rfl <;>
      simp [fitChecks, branch, hf, u2, u3, u4, u5, bind, Except.bind]
  obtain ⟨e, he⟩ := key
  refine ⟨_, e, ?_, he⟩
  rw [construct_char]
  refine ⟨⟨_, rfl⟩, ⟨_, rfl⟩, Or.inr (Or.inr rfl), rfl, Or.inr (le_refl 1), le_refl 0, _, _, h1, h2, ?_⟩
  rfl

-- The default arguments are valid, in any spelling.
example : Spec.ValidParams false false ⟨some "mp", some 5, some 100, some "random", "sqeuclidean", "knn", 1, 0⟩ :=
  (C138_accepts false false 4 _).1 (by
    have h : (construct false false 4 ⟨some "mp", some 5, some 100, some "random", "sqeuclidean", "knn", 1, 0⟩).toOption =
        some ⟨some "MP", some 5, some 100, some "random", "sqeuclidean", "knn", 1, 0⟩ := by decide +kernel
    cases hc : construct false false 4 ⟨some "mp", some 5, some 100, some "random", "sqeuclidean", "knn", 1, 0⟩ with
    | error e => rw [hc] at h; cases h
    | ok out => exact ⟨out, rfl⟩)

example : (some "Mp").map String.toUpper = (some "mP").map String.toUpper := by decide +kernel

end Approx

end HubToolbox
