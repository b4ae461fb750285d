import Verif.Analysis.Secondary
import Verif.Relations.Classify
import Verif.MPPar.Invariance
import Verif.LS.Props
import Verif.SNN.Props

/-!
# C247: the unit of the distances does not matter to an analysis

Multiplying all distances (or similarities) by a positive number changes no number of an analysis.
-/

set_option autoImplicit false

namespace HubToolbox.Analysis

/-- Which experiments find the same secondary distances: those on vectors, and those on distances with methods which adapt to the unit. The
normal distributions are those of symmetric matrices, Gamma distributions need distances which are positive on average and differ, shared
neighbours need distances without ties. -/
def UnitFree {n : ℕ} (D : Fin n → Fin n → ℝ) (kind : String) : Prop :=
  kind ∈ ["mp", "ls", "cent", "wcent", "lcent", "dsg", "dsl"] ∨
  (kind = "mp_gaussi" ∧ ∀ i j, D i j = D j i) ∨
  (kind = "mp_gammai" ∧ 3 ≤ n ∧ ∀ j, 0 < Spec.meanOver (Finset.univ.erase j) (fun i => D i j) ∧
    ∃ a b, a ≠ j ∧ b ≠ j ∧ D a j ≠ D b j) ∨
  (kind = "snn" ∧ 10 < n ∧ ∀ i a b, a ≠ i → b ≠ i → D i a = D i b → a = b)

theorem strictMono_mul {c : ℝ} (hc : 0 < c) : StrictMono (fun x : ℝ => c * x) := fun _ _ h => mul_lt_mul_of_pos_left h hc

theorem fin_mul_map {n m : ℕ} (D : Fin n → Fin m → ℝ) (c : ℝ) :
    (fun i j => (.fin (c * D i j) : XR ℝ)) = fun i j => ((.fin (D i j) : XR ℝ)).map (fun x => c * x) := rfl

theorem mp_scale (order : MPEmp.Order ℝ) {n : ℕ} (D : Fin n → Fin n → ℝ) {c : ℝ} (hc : 0 < c) (metric : String)
    (hm : metric = "distance" ∨ metric = "similarity") :
    MPEmp.full order (.obj (.mat false n n (fun i j => .fin (c * D i j)))) metric none 0 =
      MPEmp.full order (.obj (.mat false n n (fun i j => .fin (D i j)))) metric none 0 := by
  have hr : ∀ E : Fin n → Fin n → XR ℝ, ∃ M, MPEmp.full order (.obj (.mat false n n E)) metric none 0 = .ok (.dense n M) := by
    intro E
    have hf : MPEmp.full order (.obj (.mat false n n E)) metric none 0 =
        (do MPEmp.fullChecks false metric none; pure (.dense n (MPEmp.fullDense metric E))) := by simp [MPEmp.full]
    rw [hf]
    rcases hm with rfl | rfl <;> exact ⟨_, rfl⟩
  obtain ⟨M, hM⟩ := hr (fun i j => .fin (D i j))
  obtain ⟨M', hM'⟩ := hr (fun i j => .fin (c * D i j))
  rw [hM, hM', MPEmp.C22_order_only order order _ false false metric none none 0 0 M M' _ (strictMono_mul hc) hM
    (by rw [fin_mul_map] at hM'; exact hM')]

theorem gaussi_scale (F : MPPar.Dists) {n : ℕ} (D : Fin n → Fin n → ℝ) (hsym : ∀ i j, D i j = D j i) {c : ℝ} (hc : 0 < c)
    (metric : String) (hm : metric = "distance" ∨ metric = "similarity") (mn : ℤ) :
    MPPar.gaussi F (.mat false n n (fun i j => c * D i j)) metric 0 mn none none =
      MPPar.gaussi F (.mat false n n D) metric 0 mn none none := by
  have hm' : Spec.IsMetric metric := hm.symm
  by_cases hn : n ≤ 1
  · rw [MPPar.gaussi_dense F _ metric hm', MPPar.gaussi_dense F _ metric hm']
    congr 3
    funext i j
    obtain rfl : i = j := Fin.ext (by omega)
    simp [MPPar.gaussiDense, MPPar.fillUpper, Np.fillDiagonal]
  have hne : ∀ j, ((Spec.training n none).erase j).Nonempty := by
    intro j
    rw [training_none, ← Finset.card_pos, Finset.card_erase_of_mem (Finset.mem_univ j), Finset.card_univ, Fintype.card_fin]
    omega
  rw [MPPar.gaussi_eq F D metric hm' mn none hne, MPPar.gaussi_eq F _ metric hm' mn none hne, training_none]
  rw [training_none] at hne
  have hp : ∀ j i, i ≠ j → Spec.normalProb F.phi (Finset.univ.erase j) (fun a => c * D a j) (c * D i j) =
      Spec.normalProb F.phi (Finset.univ.erase j) (fun a => D a j) (D i j) := by
    intro j i hij
    have h1 : ∀ a ∈ Finset.univ.erase j, c * D a j = c * D a j + 0 := fun a _ => by ring
    unfold Spec.normalProb
    rw [MPPar.mean_affine _ (hne j) (fun a => D a j) _ c 0 h1, MPPar.std_affine _ (hne j) (fun a => D a j) _ c 0 h1, abs_of_pos hc]
    congr 1
    by_cases hsd : Spec.stdDev (Finset.univ.erase j) (fun a => D a j) = 0
    · have hx : D i j = Spec.meanOver (Finset.univ.erase j) (fun a => D a j) := by
        unfold Spec.stdDev Spec.variance at hsd
        rw [Real.sqrt_eq_zero (div_nonneg (Finset.sum_nonneg fun _ _ => sq_nonneg _) (Nat.cast_nonneg _)), div_eq_zero_iff] at hsd
        rcases hsd with h | h
        · rw [Finset.sum_eq_zero_iff_of_nonneg (fun _ _ => sq_nonneg _)] at h
          have := h i (Finset.mem_erase.2 ⟨hij, Finset.mem_univ i⟩)
          exact sub_eq_zero.1 (pow_eq_zero_iff two_ne_zero |>.1 this)
        · exact absurd (Nat.cast_eq_zero.1 h) (Finset.card_pos.2 (hne j)).ne'
      rw [← hx, add_zero, sub_self, sub_self, zero_div, zero_div]
    · unfold Spec.guard
      rw [if_neg hsd, if_neg (mul_ne_zero hc.ne' hsd)]
      field_simp
      ring
  congr 3
  funext i j
  unfold MPPar.gaussM
  by_cases hij : i = j
  · simp [hij]
  · rw [if_neg hij, if_neg hij]
    have hm : D (min i j) (max i j) = D i j := by
      rcases le_total i j with h | h
      · rw [min_eq_left h, max_eq_right h]
      · rw [min_eq_right h, max_eq_left h, hsym]
    simp only [hm]
    rw [hp j i hij]
    rw [hsym i j, hp i j (Ne.symm hij)]

theorem sampleVariance_ne {ι : Type} [DecidableEq ι] {N : Finset ι} (f : ι → ℝ) (h2 : 2 ≤ N.card) {a b : ι} (ha : a ∈ N) (hb : b ∈ N)
    (hab : f a ≠ f b) : Spec.sampleVariance N f ≠ 0 := by
  intro h
  unfold Spec.sampleVariance at h
  have h2' : ((N.card : ℝ) - 1) ≠ 0 := by
    have : (2 : ℝ) ≤ N.card := by exact_mod_cast h2
    linarith
  rw [div_eq_zero_iff] at h
  rcases h with h | h
  · rw [Finset.sum_eq_zero_iff_of_nonneg (fun _ _ => sq_nonneg _)] at h
    have e1 := sub_eq_zero.1 (pow_eq_zero_iff two_ne_zero |>.1 (h a ha))
    have e2 := sub_eq_zero.1 (pow_eq_zero_iff two_ne_zero |>.1 (h b hb))
    exact hab (e1.trans e2.symm)
  · exact h2' h

/-- The secondary matrix is the same. -/
theorem fromMatrix_scale (env : Env) {n : ℕ} (D : Fin n → Fin n → ℝ) {c : ℝ} (hc : 0 < c) (metric kind : String)
    (hm : metric = "distance" ∨ metric = "similarity")
    (h : kind ∈ ["mp", "ls"] ∨ (kind = "mp_gaussi" ∧ ∀ i j, D i j = D j i) ∨
      (kind = "mp_gammai" ∧ 3 ≤ n ∧ ∀ j, 0 < Spec.meanOver (Finset.univ.erase j) (fun i => D i j) ∧
        ∃ a b, a ≠ j ∧ b ≠ j ∧ D a j ≠ D b j) ∨
      (kind = "snn" ∧ 10 < n ∧ ∀ i a b, a ≠ i → b ≠ i → D i a = D i b → a = b)) :
    fromMatrix env kind metric (fun i j => c * D i j) = fromMatrix env kind metric D := by
  rcases h with h | ⟨rfl, h⟩ | ⟨rfl, h3, h⟩ | ⟨rfl, hn, h⟩
  · simp only [List.mem_cons, List.not_mem_nil, or_false] at h
    rcases h with rfl | rfl
    · change (MPEmp.full env.order (.obj (.mat false n n (fun i j => .fin (c * D i j)))) metric none 0).map ofResult = _
      rw [mp_scale env.order D hc metric hm]
      rfl
    · change (LS.localScaling env.ls (.mat false n n (fun i j => XR.mul (.fin c) (.fin (D i j)))) 7 metric none 1).map square = _
      rw [LS.C29_scale_invariant hc]
      rfl
  · change (MPPar.gaussi env.dists (.mat false n n (fun i j => c * D i j)) metric 0 30 none none).map _ = _
    rw [gaussi_scale env.dists D h hc metric hm]
    rfl
  · change (MPPar.gammai env.dists (.mat false n n (fun i j => c * D i j)) metric 30 none).map square = _
    have hcard : ∀ j : Fin n, 2 ≤ (Finset.univ.erase j).card := by
      intro j
      rw [Finset.card_erase_of_mem (Finset.mem_univ j), Finset.card_univ, Fintype.card_fin]
      omega
    rw [MPPar.C91_scale env.dists D c hc metric hm.symm 30 none (by rw [training_none]; exact hcard)
      (by rw [training_none]; exact fun j => (h j).1) (by
        rw [training_none]
        intro j
        obtain ⟨a, b, ha, hb, hab⟩ := (h j).2
        exact sampleVariance_ne (fun i => D i j) (hcard j) (Finset.mem_erase.2 ⟨ha, Finset.mem_univ _⟩)
          (Finset.mem_erase.2 ⟨hb, Finset.mem_univ _⟩) hab)]
    rfl
  · change (SNN.sharedNearestNeighbors env.snn (.mat false n n (fun i j => .fin (c * D i j))) (10 : ℕ) metric 1).map square = _
    rw [← SNN.C72_order_invariant env.snn env.snn D (fun i j => c * D i j) (fun i a b _ _ => (mul_lt_mul_iff_right₀ hc).symm) h 10
      (by norm_num) hn metric hm 1 1]
    rfl

/-- An experiment depends on the matrix through the secondary distances only. -/
theorem experiment_congr (env : Env) {n m : ℕ} (D D' : Fin n → Fin m → ℝ) (classes : Option (Σ l : ℕ, Fin l → ℤ))
    (vectors : Option (Σ l d : ℕ, Fin l → Fin d → ℝ)) (metric : String) (dim dim' : Option (XR ℝ)) (es es' : List Experiment)
    (hubK knnK : List ℤ) (t : ℕ) (kind : String)
    (h : metric = "distance" ∨ metric = "similarity" → secondary env ⟨n, m, D', classes, vectors, metric, dim', es'⟩ kind =
      secondary env ⟨n, m, D, classes, vectors, metric, dim, es⟩ kind) :
    experiment env ⟨n, m, D', classes, vectors, metric, dim', es'⟩ hubK knnK t kind =
      experiment env ⟨n, m, D, classes, vectors, metric, dim, es⟩ hubK knnK t kind := by
  have hc : checks ⟨n, m, D', classes, vectors, metric, dim', es'⟩ kind = checks ⟨n, m, D, classes, vectors, metric, dim, es⟩ kind := rfl
  cases hok : checks ⟨n, m, D, classes, vectors, metric, dim, es⟩ kind with
  | error e =>
    unfold experiment
    rw [hc, hok]
    rfl
  | ok x =>
    have hv := (checks_ok_iff _ _).1 hok
    unfold experiment
    rw [hc, h hv.metric]
    rfl

theorem secondary_scale (env : Env) {n : ℕ} (D : Fin n → Fin n → ℝ) {c : ℝ} (hc : 0 < c) (classes : Option (Σ l : ℕ, Fin l → ℤ))
    (vectors : Option (Σ l d : ℕ, Fin l → Fin d → ℝ)) (metric : String) (dim dim' : Option (XR ℝ)) (es es' : List Experiment)
    (kind : String) (hk : UnitFree D kind) (hm : metric = "distance" ∨ metric = "similarity") :
    secondary env ⟨n, n, fun i j => c * D i j, classes, vectors, metric, dim', es'⟩ kind =
      secondary env ⟨n, n, D, classes, vectors, metric, dim, es⟩ kind := by
  unfold secondary
  split_ifs with hv
  · rfl
  · congr 1
    apply fromMatrix_scale env D hc metric kind hm
    rcases hk with h | h | h | h
    · left
      simp only [List.mem_cons, List.not_mem_nil, or_false] at h hv ⊢
      tauto
    · exact Or.inr (Or.inl h)
    · exact Or.inr (Or.inr (Or.inl h))
    · exact Or.inr (Or.inr (Or.inr h))

/-- **C247**: experiments with methods that adapt to the unit have the same results, ties, failing experiments, and random numbers included. -/
theorem C247_same (env : Env) {n : ℕ} (D : Fin n → Fin n → ℝ) {c : ℝ} (hc : 0 < c) (classes : Option (Σ l : ℕ, Fin l → ℤ))
    (vectors : Option (Σ l d : ℕ, Fin l → Fin d → ℝ)) (metric : String) (hubK knnK : List ℤ) (t : ℕ) (kind : String)
    (hk : UnitFree D kind) :
    experiment env (.init (fun i j => c * D i j) classes vectors metric) hubK knnK t kind =
      experiment env (.init D classes vectors metric) hubK knnK t kind :=
  experiment_congr env D _ classes vectors metric none none [] [] hubK knnK t kind
    (secondary_scale env D hc classes vectors metric none none [] [] kind hk)

/-- **C247**: an analysis with such methods has the same results and ends with the same exception, if any. -/
theorem C247_analysis (env : Env) {n : ℕ} (D : Fin n → Fin n → ℝ) {c : ℝ} (hc : 0 < c) (classes : Option (Σ l : ℕ, Fin l → ℤ))
    (vectors : Option (Σ l d : ℕ, Fin l → Fin d → ℝ)) (metric : String) (hubK knnK : List ℤ) (experiments : String)
    (hk : ∀ kind ∈ split experiments, UnitFree D kind) :
    let r := analyze env (.init (fun i j => c * D i j) classes vectors metric) experiments hubK knnK
    let r' := analyze env (.init D classes vectors metric) experiments hubK knnK
    r.1.experiments = r'.1.experiments ∧ r.1.intrinsicDim = r'.1.intrinsicDim ∧ r.2 = r'.2 := by
  have hloop : ∀ (ks : List String) (t : ℕ) (dim : Option (XR ℝ)) (es : List Experiment), (∀ kind ∈ ks, UnitFree D kind) →
      let r := loop env hubK knnK t ks ⟨n, n, fun i j => c * D i j, classes, vectors, metric, dim, es⟩
      let r' := loop env hubK knnK t ks ⟨n, n, D, classes, vectors, metric, dim, es⟩
      r.1.experiments = r'.1.experiments ∧ r.1.intrinsicDim = r'.1.intrinsicDim ∧ r.2 = r'.2 := by
    intro ks
    induction ks with
    | nil => intro t dim es _; exact ⟨rfl, rfl, rfl⟩
    | cons kind ks ih =>
      intro t dim es h
      have he := experiment_congr env D (fun i j => c * D i j) classes vectors metric dim dim es es hubK knnK t kind
        (secondary_scale env D hc classes vectors metric dim dim es es kind (h kind List.mem_cons_self))
      unfold loop
      rw [he]
      cases experiment env ⟨n, n, D, classes, vectors, metric, dim, es⟩ hubK knnK t kind with
      | error err => exact ⟨rfl, rfl, rfl⟩
      | ok e => exact ih (t + 1) dim (es ++ [e]) (fun kind hk => h kind (List.mem_cons_of_mem _ hk))
  unfold analyze
  rcases vectors with _ | ⟨l, d, X⟩
  · exact hloop _ 0 none [] hk
  · dsimp only [HubnessAnalysis.init]
    cases IntDim.intrinsicDimension env.lex X 6 12 "mackay" "vector" none 5000 with
    | error err => exact ⟨rfl, rfl, rfl⟩
    | ok v => exact hloop _ 0 (some v) [] hk

/-! ### Original distances and NICDM -/

theorem headD_acc {n : ℕ} {r r' : Knn.Res ℝ n} {q q' : Knn.KRes ℝ n} (h : r.perK[0]? = some q) (h' : r'.perK[0]? = some q')
    (ha : q'.acc = q.acc) : (r'.perK.map (fun s => s.acc)).headD 0 = (r.perK.map (fun s => s.acc)).headD 0 := by
  rw [List.headD_eq_head?_getD, List.headD_eq_head?_getD, List.head?_map, List.head?_map, List.head?_eq_getElem?,
    List.head?_eq_getElem?, h, h']
  exact ha

/-- **C247**: experiments on original distances and NICDM evaluate distances in the other unit. The Goodman-Kruskal index is the same, and
without ties hubness, anti-hubs, largest hub and accuracies are the same. -/
theorem C247_scaled (env : Env) {n : ℕ} (D : Fin n → Fin n → ℝ) {c : ℝ} (hc : 0 < c) (classes : Option (Σ l : ℕ, Fin l → ℤ))
    (vectors : Option (Σ l d : ℕ, Fin l → Fin d → ℝ)) (metric : String) (hubK knnK hubK' knnK' : List ℤ) (t t' : ℕ) (kind : String)
    (hk : kind = "orig" ∨ (kind = "nicdm" ∧ 0 < n ∧ metric = "distance")) (e e' : Experiment)
    (h : experiment env (.init D classes vectors metric) hubK knnK t kind = .ok e)
    (h' : experiment env (.init (fun i j => c * D i j) classes vectors metric) hubK' knnK' t' kind = .ok e') :
    ∃ M : Fin n → Fin n → XR ℝ, e.secondary = .mat false n n M ∧
      e'.secondary = .mat false n n (fun i j => XR.mul (.fin c) (M i j)) ∧ e'.gk = e.gk ∧
      (Hubness.TieFree metric M → ∀ k ∈ hubK, k ∈ hubK' →
        e'.hubness k = e.hubness k ∧ e'.antiHubs k = e.antiHubs k ∧ e'.maxHub k = e.maxHub k) ∧
      ∀ v : Fin n → Fin n → ℝ, M = (fun i j => .fin (v i j)) → (∀ i a b, a ≠ i → b ≠ i → v i a = v i b → a = b) → 2 ≤ n →
        ∀ k ∈ knnK, k ∈ knnK' → 1 ≤ k → e'.knnAccuracy k = e.knnAccuracy k := by
  have hf := experiment_inv h
  have hf' := experiment_inv h'
  obtain ⟨M, hM⟩ : ∃ M : Fin n → Fin n → XR ℝ, e.secondary = .mat false n n M := hf.shape
  have hM' : e'.secondary = .mat false n n (fun i j => XR.mul (.fin c) (M i j)) := by
    have h1 := hf.sec
    have h2 := hf'.sec
    rcases hk with rfl | ⟨rfl, hn, rfl⟩
    · have e1 : e.secondary = .mat false n n (fun i j => .fin (D i j)) := (Except.ok.inj h1).symm
      have e2 : e'.secondary = .mat false n n (fun i j => .fin (c * D i j)) := (Except.ok.inj h2).symm
      rw [e2]
      rw [hM] at e1
      injection e1 with _ _ _ e1
      rw [e1]
      rfl
    · change untype ((LS.nicdm env.ls (.mat false n n (fun i j => .fin (D i j))) (7 : ℕ) "distance" none 1).map square) = _ at h1
      change untype ((LS.nicdm env.ls (.mat false n n (fun i j => XR.mul (.fin c) (.fin (D i j)))) (7 : ℕ) "distance" none 1).map square)
        = _ at h2
      rw [LS.C32_scale hc env.ls hn] at h2
      cases hN : LS.nicdm env.ls (.mat false n n (fun i j => .fin (D i j))) (7 : ℕ) "distance" none 1 with
      | error err =>
        rw [hN] at h1
        cases err <;> cases h1
      | ok R =>
        rw [hN] at h1 h2
        have e1 : square R = e.secondary := Except.ok.inj h1
        have e2 : e'.secondary = square ⟨R.1, fun i j => XR.mul (.fin c) (R.2 i j)⟩ := (Except.ok.inj h2).symm
        rw [e2]
        rw [hM] at e1
        unfold square at e1 ⊢
        obtain ⟨p, R⟩ := R
        injection e1 with _ e3 _ e4
        dsimp only at e3
        subst e3
        rw [eq_of_heq e4]
  have hmul : (fun i j => XR.mul (.fin c) (M i j)) = fun i j => (M i j).map (fun x => c * x) := by
    funext i j
    rw [LS.mul_eq_scale hc]
    rfl
  refine ⟨M, hM, hM', ?_, ?_, ?_⟩
  · rcases classes with _ | ⟨l, y⟩
    · rw [(hf.unlabelled rfl).2, (hf'.unlabelled rfl).2]
    · obtain rfl : n = l := hf.valid.classes l y rfl
      obtain ⟨-, -, g, hg, h1⟩ := hf.knn n y rfl
      obtain ⟨-, -, g', hg', h1'⟩ := hf'.knn n y rfl
      rw [hM] at hg
      rw [hM', hmul] at hg'
      change GK.index _ _ metric = _ at hg
      change GK.index _ _ metric = _ at hg'
      rw [GK.C16_order_only M y metric _ (strictMono_mul hc), hg] at hg'
      rw [h1, h1', Except.ok.inj hg']
  · intro htf k hk hk'
    obtain ⟨rnd, m, r, h0, h1, h2, h3⟩ := hf.hub k hk
    obtain ⟨rnd', m', r', h0', h1', h2', h3'⟩ := hf'.hub k hk'
    rw [hM] at h0
    rw [hM', hmul] at h0'
    change Hubness.hubness _ _ _ _ k metric 1 false true = _ at h0
    change Hubness.hubness _ _ _ _ k metric 1 false true = _ at h0'
    rw [(Hubness.C01_hubness_argument env.part rnd env.sched k metric 1 false true (by simp)).2.2] at h0
    rw [(Hubness.C01_hubness_argument env.part rnd' env.sched k metric 1 false true (by simp)).2.2] at h0'
    obtain ⟨q, hr, h0⟩ := map_ok h0
    obtain ⟨q', hr', h0'⟩ := map_ok h0'
    obtain rfl : m = n := by injection h0
    obtain rfl : r = q := by injection h0
    obtain rfl : m' = m := by injection h0'
    obtain rfl : r' = q' := by injection h0'
    have hcov : Hubness.Covered 1 metric m' m' := by simp [Hubness.Covered]
    obtain rfl := Hubness.C06_order_only env.part env.part rnd rnd' env.sched env.sched false false M k metric 1 1 false false true true
      hcov hcov htf _ (strictMono_mul hc) (Or.inl rfl) r r' hr hr'
    exact ⟨by rw [h1, h1'], by rw [h2, h2']; rfl, by rw [h3, h3']; rfl⟩
  · rintro v rfl hties hn k hk hk' h1
    rcases classes with _ | ⟨l, y⟩
    · rw [(hf.unlabelled rfl).1, (hf'.unlabelled rfl).1]
    · obtain rfl : n = l := hf.valid.classes l y rfl
      obtain ⟨rnd, m, r, h0, ha⟩ := (hf.knn n y rfl).1 k hk
      obtain ⟨rnd', m', r', h0', ha'⟩ := (hf'.knn n y rfl).1 k hk'
      rw [hM] at h0
      rw [hM'] at h0'
      obtain ⟨q, q', hq, hq', hall⟩ := Relations.C169_score env.srt env.srt env.part env.part rnd rnd' hn v (fun i j => c * v i j) y y [k]
        (by simpa using h1) metric hf.valid.metric hties 1 (fun i a b _ _ => mul_lt_mul_iff_right₀ hc) id Function.injective_id
        (fun _ => rfl)
      have e1 : (⟨m, r⟩ : Σ n : ℕ, Knn.Res ℝ n) = ⟨n, q⟩ := Except.ok.inj (h0.symm.trans hq)
      have e2 : (⟨m', r'⟩ : Σ n : ℕ, Knn.Res ℝ n) = ⟨n, q'⟩ := Except.ok.inj (h0'.symm.trans hq')
      obtain rfl : m = n := by injection e1
      obtain rfl : r = q := by injection e1
      obtain rfl : m' = m := by injection e2
      obtain rfl : r' = q' := by injection e2
      obtain ⟨p, p', hp, hp', -, hacc⟩ := hall 0 (by simp)
      rw [ha, ha', headD_acc hp hp' hacc]

/-! ### The statements are not vacuous -/

/-- Eleven points on a line, each row without ties, centimetres and metres. -/
example (env : Env) := C247_analysis env (n := 11) (fun i j => |(2 : ℝ) ^ i.val - 2 ^ j.val|) (c := 1 / 100) (by norm_num)
  (some ⟨11, fun i => (i.val : ℤ) % 2⟩) none "distance" [5] [1, 5] (",".intercalate ["mp", "mp_gaussi", "ls"]) (by
    have : split (",".intercalate ["mp", "mp_gaussi", "ls"]) = ["mp", "mp_gaussi", "ls"] := by decide +kernel
    rw [this]
    intro kind hk
    simp only [List.mem_cons, List.not_mem_nil, or_false] at hk
    rcases hk with rfl | rfl | rfl
    · exact Or.inl (by simp)
    · exact Or.inr (Or.inl ⟨rfl, fun i j => abs_sub_comm _ _⟩)
    · exact Or.inl (by simp))

/-- Gamma distributions and shared neighbours. -/
example : UnitFree (fun i j : Fin 11 => ((i.val + 2 * j.val + 1 : ℕ) : ℝ)) "mp_gammai" := by
  refine Or.inr (Or.inr (Or.inl ⟨rfl, by norm_num, fun j => ⟨?_, ?_⟩⟩))
  · unfold Spec.meanOver
    apply div_pos
    · apply Finset.sum_pos
      · intro i _
        positivity
      · exact Finset.card_pos.1 (by simp)
    · simp
  · obtain ⟨a, b, ha, hb, hab⟩ : ∃ a b : Fin 11, a ≠ j ∧ b ≠ j ∧ a ≠ b := by
      revert j; decide
    refine ⟨a, b, ha, hb, fun h => hab (Fin.ext ?_)⟩
    have : a.val + 2 * j.val + 1 = b.val + 2 * j.val + 1 := Nat.cast_injective (R := ℝ) h
    omega

example : UnitFree (fun i j : Fin 11 => ((i.val + 2 * j.val : ℕ) : ℝ)) "snn" := by
  refine Or.inr (Or.inr (Or.inr ⟨rfl, by norm_num, fun i a b _ _ h => Fin.ext ?_⟩))
  have : i.val + 2 * a.val = i.val + 2 * b.val := Nat.cast_injective (R := ℝ) h
  omega

/-- The hypotheses of `C247_scaled` hold for three points. -/
example (env : Env) : ∃ (D : Fin 3 → Fin 3 → ℝ) (e e' : Experiment),
    experiment env (.init D (some ⟨3, ![0, 0, 1]⟩) none "distance") [1] [1] 0 "orig" = .ok e ∧
    experiment env (.init (fun i j => 5 * D i j) (some ⟨3, ![0, 0, 1]⟩) none "distance") [1] [1] 4 "orig" = .ok e' ∧
    (∀ i a b, a ≠ i → b ≠ i → D i a = D i b → a = b) ∧ Hubness.TieFree "distance" (fun i j => (.fin (D i j) : XR ℝ)) := by
  have hv : ∀ D : Fin 3 → Fin 3 → ℝ, Valid (.init D (some ⟨3, ![0, 0, 1]⟩) none "distance") "orig" := fun D =>
    ⟨rfl, Or.inl rfl, by decide, (fun l y h => by
      simp only [HubnessAnalysis.init, Option.some.injEq, Sigma.mk.injEq] at h
      exact h.1), (fun _ _ _ h => by cases h)⟩
  let D : Fin 3 → Fin 3 → ℝ := fun i j => ((i.val + 2 * j.val : ℕ) : ℝ)
  have hD : ∀ i a b, D i a = D i b → a = b := by
    intro i a b h
    have : i.val + 2 * a.val = i.val + 2 * b.val := Nat.cast_injective (R := ℝ) h
    exact Fin.ext (by omega)
  obtain ⟨e, he⟩ := experiment_ok env _ [1] [1] 0 "orig" (hv D) (by change 0 < 3; norm_num) (by decide) _ rfl
  obtain ⟨e', he'⟩ := experiment_ok env _ [1] [1] 4 "orig" (hv fun i j => 5 * D i j) (by change 0 < 3; norm_num) (by decide) _ rfl
  refine ⟨D, e, e', he, he', fun i a b _ _ h => hD i a b h, ?_⟩
  intro i j j' h
  have key : ∀ j, Spec.effective "distance" (fun i j => (.fin (D i j) : XR ℝ)) i j = if i = j then .pinf else .fin (D i j) := by
    intro j
    unfold Spec.effective Spec.far
    simp [XR.isFinite, Fin.ext_iff]
  rw [key, key] at h
  split_ifs at h with h1 h2 h2
  · exact h1.symm.trans h2
  · exact hD i j j' (XR.fin.inj h)

end HubToolbox.Analysis
