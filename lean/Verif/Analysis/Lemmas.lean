import Verif.Analysis.Model
import Verif.MPEmp.Props
import Verif.MPPar.Props
import Verif.LS.Props
import Verif.SNN.Props
import Verif.Cent.Local
import Verif.Cent.Localized
import Verif.Cent.Weighted
import Verif.Hubness.Props
import Verif.Knn.Props
import Verif.GK.Props
import Verif.IntDim.Props
import Verif.Dist.Cosine

/-!
# Inversion of the analysis loop
-/

set_option autoImplicit false

namespace HubToolbox.Analysis

/-- The checks of the constructor. -/
structure Valid (a : HubnessAnalysis) (kind : String) : Prop where
  square : a.n = a.m
  metric : a.metric = "distance" ∨ a.metric = "similarity"
  kind : kind ∈ kinds
  classes : ∀ l y, a.classes = some ⟨l, y⟩ → a.n = l
  vectors : ∀ l d X, a.vectors = some ⟨l, d, X⟩ → a.n = l

theorem checks_ok_iff (a : HubnessAnalysis) (kind : String) : checks a kind = .ok () ↔ Valid a kind := by
  obtain ⟨n, m, D, classes, vectors, metric, dim, exps⟩ := a
  constructor
  · intro h
    unfold checks at h
    by_cases hnm : n = m
    · by_cases hm : metric = "distance" ∨ metric = "similarity"
      · by_cases hk : kind ∈ kinds
        · have hmv : checkValidMetric metric = .ok () := by
            rcases hm with rfl | rfl <;> rfl
          simp only [hnm, ne_eq, not_true_eq_false, if_false, hmv, hk] at h
          rcases classes with _ | ⟨l, y⟩
          · rcases vectors with _ | ⟨l', d, X⟩
            · exact ⟨hnm, hm, hk, by simp, by simp⟩
            · by_cases hv : m = l'
              · exact ⟨hnm, hm, hk, by simp, by rintro _ _ _ ⟨⟩; exact hnm.trans hv⟩
              · simp only [hv, not_false_eq_true, if_true] at h
                cases h
          · by_cases hc : m = l
            · rcases vectors with _ | ⟨l', d, X⟩
              · exact ⟨hnm, hm, hk, by rintro _ _ ⟨⟩; exact hnm.trans hc, by simp⟩
              · by_cases hv : m = l'
                · exact ⟨hnm, hm, hk, by rintro _ _ ⟨⟩; exact hnm.trans hc, by rintro _ _ _ ⟨⟩; exact hnm.trans hv⟩
                · subst hc
                  simp only [not_true_eq_false, if_false, hv, not_false_eq_true, if_true] at h
                  cases h
            · simp only [hc, not_false_eq_true, if_true] at h
              cases h
        · have hmv : checkValidMetric metric = .ok () := by
            rcases hm with rfl | rfl <;> rfl
          simp only [hnm, ne_eq, not_true_eq_false, if_false, hmv, hk, not_false_eq_true, if_true] at h
          cases h
      · have hmv : checkValidMetric metric = .error .valueError := by
          unfold checkValidMetric
          rw [if_pos]
          tauto
        simp only [hnm, ne_eq, not_true_eq_false, if_false, hmv] at h
        cases h
    · simp only [hnm, ne_eq, not_false_eq_true, if_true] at h
      cases h
  · rintro ⟨h1, hm, hk, hc, hv⟩
    simp only at h1 hm hc hv
    have hmv : checkValidMetric metric = .ok () := by
      rcases hm with rfl | rfl <;> rfl
    unfold checks
    simp only [h1, ne_eq, not_true_eq_false, if_false, hmv, hk]
    rcases classes with _ | ⟨l, y⟩
    · rcases vectors with _ | ⟨l', d, X⟩
      · rfl
      · have := hv l' d X rfl
        simp only [← h1, this, not_true_eq_false, if_false]
        rfl
    · have h2 := hc l y rfl
      rcases vectors with _ | ⟨l', d, X⟩
      · simp only [← h1, h2, not_true_eq_false, if_false]
        rfl
      · have h3 := hv l' d X rfl
        simp only [← h1, ← h2, ← h3, not_true_eq_false, if_false]
        rfl

/-! ### Shape of the secondary distances -/

theorem untype_ok {α : Type} {r : Py α} {x : α} (h : untype r = .ok x) : r = .ok x := by
  unfold untype at h
  split at h
  · cases h
  · exact h

theorem map_ok {α β : Type} {r : Py α} {f : α → β} {y : β} (h : r.map f = .ok y) : ∃ x, r = .ok x ∧ y = f x := by
  cases r with
  | error e => cases h
  | ok x => exact ⟨x, rfl, (Except.ok.inj h).symm⟩

theorem fromMatrix_shape (env : Env) (kind metric : String) {n : ℕ} (D : Fin n → Fin n → ℝ)
    (hm : metric = "distance" ∨ metric = "similarity") {S : PyMat (XR ℝ)}
    (h : fromMatrix env kind metric D = .ok S) : ∃ M, S = .mat false n n M := by
  have hmv : checkValidMetric metric = .ok () := by rcases hm with rfl | rfl <;> rfl
  unfold fromMatrix at h
  simp only at h
  split_ifs at h
  · obtain ⟨x, hx, rfl⟩ := map_ok h
    unfold MPEmp.full at hx
    simp only [dif_pos] at hx
    cases hc : MPEmp.fullChecks false metric none with
    | error e => rw [hc] at hx; cases hx
    | ok u =>
      rw [hc] at hx
      cases hx
      exact ⟨_, rfl⟩
  · obtain ⟨x, hx, rfl⟩ := map_ok h
    unfold MPPar.gaussi PyMat.checkSquare at hx
    simp only [dif_pos, hmv] at hx
    cases hx
    exact ⟨_, rfl⟩
  · obtain ⟨x, hx, rfl⟩ := map_ok h
    unfold MPPar.gammai PyMat.checkSquare at hx
    simp only [dif_pos, hmv] at hx
    cases hx
    exact ⟨_, rfl⟩
  · obtain ⟨x, hx, rfl⟩ := map_ok h
    unfold LS.localScaling PyMat.checkSquare at hx
    simp only [dif_pos, hmv] at hx
    change (do
      let M ← LS.core env.ls _ _ _ _ _
      pure (⟨n, M⟩ : Σ n : ℕ, Fin n → Fin n → XR ℝ)) = _ at hx
    generalize LS.core env.ls _ _ _ _ _ = c at hx
    cases c with
    | error e => cases hx
    | ok M => cases hx; exact ⟨M, rfl⟩
  · obtain ⟨x, hx, rfl⟩ := map_ok h
    unfold LS.nicdm PyMat.checkSquare at hx
    simp only [dif_pos, hmv] at hx
    rcases hm with rfl | rfl
    · change (do
        let M ← LS.nicdmCore env.ls _ _ _ _
        pure (⟨n, M⟩ : Σ n : ℕ, Fin n → Fin n → XR ℝ)) = _ at hx
      generalize LS.nicdmCore env.ls _ _ _ _ = c at hx
      cases c with
      | error e => cases hx
      | ok M => cases hx; exact ⟨M, rfl⟩
    · cases hx
  · obtain ⟨x, hx, rfl⟩ := map_ok h
    unfold SNN.sharedNearestNeighbors PyMat.checkSquare at hx
    simp only [dif_pos, hmv] at hx
    change (do
      let M ← SNN.core env.snn _ _ _ _
      pure (⟨n, M⟩ : Σ n : ℕ, Fin n → Fin n → XR ℝ)) = _ at hx
    generalize SNN.core env.snn _ _ _ _ = c at hx
    cases c with
    | error e => cases hx
    | ok M => cases hx; exact ⟨M, rfl⟩
  · cases h
    exact ⟨_, rfl⟩

theorem fromVectors_shape (env : Env) (kind : String) {l d : ℕ} (X : Fin l → Fin d → ℝ) {S : PyMat (XR ℝ)}
    (h : fromVectors env kind (some ⟨l, d, X⟩) = .ok S) : ∃ M, S = .mat false l l M := by
  unfold fromVectors at h
  simp only at h
  split_ifs at h
  · obtain ⟨x, hx, rfl⟩ := map_ok h
    exact ⟨_, rfl⟩
  · obtain ⟨x, hx, rfl⟩ := map_ok h
    exact ⟨_, rfl⟩
  · obtain ⟨x, hx, rfl⟩ := map_ok h
    unfold Cent.localizedCentering at hx
    simp only [Option.getD_none, dif_pos] at hx
    generalize Cent.affinities env.snn _ _ _ = c at hx
    cases c with
    | error e => cases hx
    | ok A => cases hx; exact ⟨_, rfl⟩
  · obtain ⟨x, hx, rfl⟩ := map_ok h
    unfold Cent.disSimGlobal at hx
    simp only [Option.getD_none, dif_pos] at hx
    split_ifs at hx
    cases hx
    exact ⟨_, rfl⟩
  · obtain ⟨x, hx, rfl⟩ := map_ok h
    unfold Cent.disSimLocal at hx
    simp only at hx
    by_cases h0 : l = 0 ∨ d = 0
    · rw [if_pos h0] at hx; cases hx
    · rw [if_neg h0] at hx
      generalize Cent.centroids env.snn _ _ _ _ _ = c at hx
      cases c with
      | error e => cases hx
      | ok A => cases hx; exact ⟨_, rfl⟩

theorem secondary_shape (env : Env) (a : HubnessAnalysis) (kind : String) (hv : Valid a kind) {S : PyMat (XR ℝ)}
    (h : secondary env a kind = .ok S) : ∃ M, S = .mat false a.n a.n M := by
  obtain ⟨n, m, D, classes, vectors, metric, dim, exps⟩ := a
  obtain rfl : n = m := hv.square
  unfold secondary at h
  split_ifs at h
  · rcases vectors with _ | ⟨l, d, X⟩
    · unfold fromVectors at h
      simp only at h
      split_ifs at h
    · obtain rfl : n = l := hv.vectors l d X rfl
      exact fromVectors_shape env kind X h
  · exact fromMatrix_shape env kind metric D hv.metric (untype_ok h)

/-! ### The loops over `k` -/

/-- What one call of `_calc_hubness` stores for `k`. -/
def Stored (env : Env) (a : HubnessAnalysis) (S : PyMat (XR ℝ)) (e : Experiment) (k : ℤ) : Prop :=
  ∃ (rnd : Hubness.Rnd) (n' : ℕ) (r : Hubness.Res n'),
    Hubness.hubness env.part rnd env.sched S k a.metric 1 false true = .ok ⟨n', r⟩ ∧
    e.hubness k = some r.Sk ∧
    e.antiHubs k = some (100 * ((r.Nk.filter (fun c => decide (c = 0))).length : ℝ) / (a.n : ℝ)) ∧
    e.maxHub k = some (100 * ((r.Nk.foldr max 0 : ℕ) : ℝ) / (a.n : ℝ))

theorem calcHubness_inv {env : Env} {a : HubnessAnalysis} {rnd : Hubness.Rnd} {e e' : Experiment} {k : ℤ}
    (h : calcHubness env a rnd e k = .ok e') :
    e'.kind = e.kind ∧ e'.embeddingDim = e.embeddingDim ∧ e'.secondary = e.secondary ∧ e'.knnAccuracy = e.knnAccuracy ∧
    e'.gk = e.gk ∧ Stored env a e.secondary e' k ∧
    ∀ k', k' ≠ k → e'.hubness k' = e.hubness k' ∧ e'.antiHubs k' = e.antiHubs k' ∧ e'.maxHub k' = e.maxHub k' := by
  unfold calcHubness at h
  cases hr : Hubness.hubness env.part rnd env.sched e.secondary k a.metric 1 false true with
  | error err => rw [hr] at h; cases h
  | ok x =>
    obtain ⟨n', r⟩ := x
    rw [hr] at h
    cases h
    refine ⟨rfl, rfl, rfl, rfl, rfl, ⟨rnd, n', r, hr, ?_, ?_, ?_⟩, ?_⟩
    · exact Function.update_self _ _ _
    · exact Function.update_self _ _ _
    · exact Function.update_self _ _ _
    · intro k' hk
      exact ⟨Function.update_of_ne hk _ _, Function.update_of_ne hk _ _, Function.update_of_ne hk _ _⟩

theorem hubFold_inv (env : Env) (a : HubnessAnalysis) (t : ℕ) (ks : List (ℤ × ℕ)) : ∀ (e e' : Experiment),
    ks.foldlM (fun e p => calcHubness env a (env.rndHub t p.2) e p.1) e = .ok e' →
    e'.kind = e.kind ∧ e'.embeddingDim = e.embeddingDim ∧ e'.secondary = e.secondary ∧ e'.knnAccuracy = e.knnAccuracy ∧
    e'.gk = e.gk ∧
    (∀ k ∈ ks.map Prod.fst, Stored env a e.secondary e' k) ∧
    ∀ k ∉ ks.map Prod.fst, e'.hubness k = e.hubness k ∧ e'.antiHubs k = e.antiHubs k ∧ e'.maxHub k = e.maxHub k := by
  induction ks with
  | nil =>
    intro e e' h
    cases h
    exact ⟨rfl, rfl, rfl, rfl, rfl, by simp, fun _ _ => ⟨rfl, rfl, rfl⟩⟩
  | cons p ks ih =>
    intro e e' h
    rw [List.foldlM_cons] at h
    cases h1 : calcHubness env a (env.rndHub t p.2) e p.1 with
    | error err => rw [h1] at h; cases h
    | ok e1 =>
      rw [h1] at h
      obtain ⟨a1, a2, a3, a4, a5, a6, a7⟩ := calcHubness_inv h1
      obtain ⟨b1, b2, b3, b4, b5, b6, b7⟩ := ih e1 e' h
      refine ⟨b1.trans a1, b2.trans a2, b3.trans a3, b4.trans a4, b5.trans a5, ?_, ?_⟩
      · intro k hk
        by_cases hks : k ∈ ks.map Prod.fst
        · rw [← a3]; exact b6 k hks
        · have hkp : k = p.1 := by
            rcases List.mem_cons.1 hk with h | h
            · exact h
            · exact absurd h hks
          subst hkp
          obtain ⟨rnd, n', r, c1, c2, c3, c4⟩ := a6
          obtain ⟨d1, d2, d3⟩ := b7 _ hks
          exact ⟨rnd, n', r, c1, d1.trans c2, d2.trans c3, d3.trans c4⟩
      · intro k hk
        simp only [List.map_cons, List.mem_cons, not_or] at hk
        obtain ⟨d1, d2, d3⟩ := b7 k hk.2
        obtain ⟨f1, f2, f3⟩ := a7 k hk.1
        exact ⟨d1.trans f1, d2.trans f2, d3.trans f3⟩

/-- What one call of `_calc_knn_accuracy` stores for `k`. -/
def StoredKnn (env : Env) (a : HubnessAnalysis) (y : PyVec ℤ) (S : PyMat (XR ℝ)) (e : Experiment) (k : ℤ) : Prop :=
  ∃ (rnd : Knn.Rnd) (n' : ℕ) (r : Knn.Res ℝ n'),
    Knn.score env.srt env.part rnd S y (.int k) a.metric none = .ok ⟨n', r⟩ ∧
    e.knnAccuracy k = some ((r.perK.map (fun s => s.acc)).headD 0)

theorem calcKnn_inv {env : Env} {a : HubnessAnalysis} {y : PyVec ℤ} {rnd : Knn.Rnd} {e e' : Experiment} {k : ℤ}
    (h : calcKnn env a y rnd e k = .ok e') :
    e'.kind = e.kind ∧ e'.embeddingDim = e.embeddingDim ∧ e'.secondary = e.secondary ∧ e'.hubness = e.hubness ∧
    e'.antiHubs = e.antiHubs ∧ e'.maxHub = e.maxHub ∧
    e'.gk = e.gk ∧ StoredKnn env a y e.secondary e' k ∧ ∀ k', k' ≠ k → e'.knnAccuracy k' = e.knnAccuracy k' := by
  unfold calcKnn at h
  cases hr : Knn.score env.srt env.part rnd e.secondary y (.int k) a.metric none with
  | error err => rw [hr] at h; cases h
  | ok x =>
    obtain ⟨n', r⟩ := x
    rw [hr] at h
    cases h
    refine ⟨rfl, rfl, rfl, rfl, rfl, rfl, rfl, ⟨rnd, n', r, hr, ?_⟩, ?_⟩
    · exact Function.update_self _ _ _
    · intro k' hk
      exact Function.update_of_ne hk _ _

theorem knnFold_inv (env : Env) (a : HubnessAnalysis) (y : PyVec ℤ) (t : ℕ) (ks : List (ℤ × ℕ)) : ∀ (e e' : Experiment),
    ks.foldlM (fun e p => calcKnn env a y (env.rndKnn t p.2) e p.1) e = .ok e' →
    e'.kind = e.kind ∧ e'.embeddingDim = e.embeddingDim ∧ e'.secondary = e.secondary ∧ e'.hubness = e.hubness ∧
    e'.antiHubs = e.antiHubs ∧ e'.maxHub = e.maxHub ∧ e'.gk = e.gk ∧
    (∀ k ∈ ks.map Prod.fst, StoredKnn env a y e.secondary e' k) ∧
    ∀ k ∉ ks.map Prod.fst, e'.knnAccuracy k = e.knnAccuracy k := by
  induction ks with
  | nil =>
    intro e e' h
    cases h
    exact ⟨rfl, rfl, rfl, rfl, rfl, rfl, rfl, by simp, fun _ _ => rfl⟩
  | cons p ks ih =>
    intro e e' h
    rw [List.foldlM_cons] at h
    cases h1 : calcKnn env a y (env.rndKnn t p.2) e p.1 with
    | error err => rw [h1] at h; cases h
    | ok e1 =>
      rw [h1] at h
      obtain ⟨a1, a2, a3, a4, a5, a6, a7, a8, a9⟩ := calcKnn_inv h1
      obtain ⟨b1, b2, b3, b4, b5, b6, b7, b8, b9⟩ := ih e1 e' h
      refine ⟨b1.trans a1, b2.trans a2, b3.trans a3, b4.trans a4, b5.trans a5, b6.trans a6, b7.trans a7, ?_, ?_⟩
      · intro k hk
        by_cases hks : k ∈ ks.map Prod.fst
        · rw [← a3]; exact b8 k hks
        · have hkp : k = p.1 := by
            rcases List.mem_cons.1 hk with h | h
            · exact h
            · exact absurd h hks
          subst hkp
          obtain ⟨rnd, n', r, c1, c2⟩ := a8
          exact ⟨rnd, n', r, c1, (b9 _ hks).trans c2⟩
      · intro k hk
        simp only [List.map_cons, List.mem_cons, not_or] at hk
        exact (b9 k hk.2).trans (a9 k hk.1)

theorem bind_ok {α β : Type} {r : Py α} {f : α → Py β} {y : β} (h : (r >>= f) = .ok y) : ∃ x, r = .ok x ∧ f x = .ok y := by
  cases r with
  | error e => cases h
  | ok x => exact ⟨x, rfl, h⟩

theorem zipIdx_fst (l : List ℤ) : l.zipIdx.map Prod.fst = l := List.zipIdx_map_fst 0 l

/-- Everything a finished experiment contains. -/
structure Finished (env : Env) (a : HubnessAnalysis) (hubK knnK : List ℤ) (kind : String) (e : Experiment) : Prop where
  valid : Valid a kind
  dim : e.embeddingDim = a.vectors.map (fun v => v.2.1)
  sec : secondary env a kind = .ok e.secondary
  name : e.kind = kind
  shape : ∃ M, e.secondary = .mat false a.n a.n M
  hub : ∀ k ∈ hubK, Stored env a e.secondary e k
  noHub : ∀ k ∉ hubK, e.hubness k = none ∧ e.antiHubs k = none ∧ e.maxHub k = none
  unlabelled : a.classes = none → (∀ k, e.knnAccuracy k = none) ∧ e.gk = none
  knn : ∀ l y, a.classes = some ⟨l, y⟩ → (∀ k ∈ knnK, StoredKnn env a (.vec l y) e.secondary e k) ∧
    (∀ k ∉ knnK, e.knnAccuracy k = none) ∧
    ∃ g, GK.index e.secondary (.vec l y) a.metric = .ok g ∧ e.gk = some g

theorem experiment_inv {env : Env} {a : HubnessAnalysis} {hubK knnK : List ℤ} {t : ℕ} {kind : String} {e : Experiment}
    (h : experiment env a hubK knnK t kind = .ok e) : Finished env a hubK knnK kind e := by
  unfold experiment at h
  obtain ⟨_, hc, h⟩ := bind_ok h
  obtain ⟨S, hs, h⟩ := bind_ok h
  have hv := (checks_ok_iff a kind).1 hc
  obtain ⟨M, hM⟩ := secondary_shape env a kind hv hs
  obtain ⟨e1, h1, h2⟩ := bind_ok h
  obtain ⟨a1, a2, a3, a4, a5, a6, a7⟩ := hubFold_inv env a t _ _ _ h1
  rw [zipIdx_fst] at a6 a7
  rcases hcl : a.classes with _ | ⟨l, y⟩
  · rw [hcl] at h2
    cases h2
    exact ⟨hv, a2, by rw [a3]; exact hs, a1, ⟨M, by rw [a3]; exact hM⟩, by rw [a3]; exact a6, a7,
      fun _ => ⟨fun k => by rw [a4], a5⟩, by simp [hcl]⟩
  · rw [hcl] at h2
    obtain ⟨e2, h4, h3⟩ := bind_ok h2
    obtain ⟨g, hg, h3⟩ := bind_ok h3
    cases h3
    obtain ⟨b1, b2, b3, b4, b5, b6, b7, b8, b9⟩ := knnFold_inv env a _ t _ _ _ h4
    rw [zipIdx_fst] at b8 b9
    refine ⟨hv, b2.trans a2, ?_, b1.trans a1, ⟨M, ?_⟩, ?_, ?_, by simp [hcl], ?_⟩
    · exact hs.trans (by rw [← show e2.secondary = S from b3.trans a3])
    · exact (b3.trans a3).trans hM
    · intro k hk
      obtain ⟨rnd, n', r, c1, c2, c3, c4⟩ := a6 k hk
      refine ⟨rnd, n', r, ?_, ?_, ?_, ?_⟩
      · rw [← c1, ← show e2.secondary = S from b3.trans a3]
      · rw [← c2, ← b4]
      · rw [← c3, ← b5]
      · rw [← c4, ← b6]
    · intro k hk
      obtain ⟨c1, c2, c3⟩ := a7 k hk
      exact ⟨(congrFun b4 k).trans c1, (congrFun b5 k).trans c2, (congrFun b6 k).trans c3⟩
    · intro l' y' hl
      obtain rfl : l = l' := by rw [hcl] at hl; injection hl with hl; injection hl
      obtain rfl : y = y' := by rw [hcl] at hl; injection hl with hl; injection hl
      refine ⟨?_, ?_, g, hg, rfl⟩
      · intro k hk
        obtain ⟨rnd, n', r, c1, c2⟩ := b8 k hk
        exact ⟨rnd, n', r, by rw [← c1, ← b3], c2⟩
      · intro k hk
        exact (b9 k hk).trans (congrFun a4 k)

/-! ### The loop over the experiments -/

/-- Experiments neither depend on former ones nor on the intrinsic dimension. -/
theorem experiment_with (env : Env) (a : HubnessAnalysis) (hubK knnK : List ℤ) (t : ℕ) (kind : String) (l : List Experiment)
    (d : Option (XR ℝ)) :
    experiment env { a with experiments := l, intrinsicDim := d } hubK knnK t kind = experiment env a hubK knnK t kind := rfl

theorem loop_spec (env : Env) (hubK knnK : List ℤ) (names : List String) : ∀ (t : ℕ) (a a' : HubnessAnalysis) (err : Option PyErr),
    loop env hubK knnK t names a = (a', err) →
    ∃ (done rest : List String) (new : List Experiment), names = done ++ rest ∧
      a' = { a with experiments := a.experiments ++ new } ∧
      new.length = done.length ∧
      (∀ (i : ℕ) (h : i < done.length) (h' : i < new.length), experiment env a hubK knnK (t + i) done[i] = .ok new[i]) ∧
      ((rest = [] ∧ err = none) ∨
        ∃ kind rest' e, rest = kind :: rest' ∧ err = some e ∧
          experiment env a hubK knnK (t + done.length) kind = .error e) := by
  induction names with
  | nil =>
    intro t a a' err h
    cases h
    exact ⟨[], [], [], rfl, by simp, rfl, by simp, Or.inl ⟨rfl, rfl⟩⟩
  | cons kind names ih =>
    intro t a a' err h
    unfold loop at h
    cases he : experiment env a hubK knnK t kind with
    | error er =>
      rw [he] at h
      cases h
      exact ⟨[], kind :: names, [], rfl, by simp, rfl, by simp, Or.inr ⟨kind, names, er, rfl, rfl, he⟩⟩
    | ok e =>
      rw [he] at h
      obtain ⟨done, rest, new, h1, h2, h3, h4, h5⟩ := ih _ _ _ _ h
      refine ⟨kind :: done, rest, e :: new, by rw [h1]; rfl, ?_, by simp [h3], ?_, ?_⟩
      · rw [h2]; simp
      · intro i hi hi'
        cases i with
        | zero => exact he
        | succ i =>
          have := h4 i (by simpa using hi) (by simpa using hi')
          rw [experiment_with env a hubK knnK _ _ _ a.intrinsicDim] at this
          simpa [Nat.add_assoc, Nat.add_comm 1] using this
      · rcases h5 with h5 | ⟨k, r, er, h6, h7, h8⟩
        · exact Or.inl h5
        · refine Or.inr ⟨k, r, er, h6, h7, ?_⟩
          rw [experiment_with env a hubK knnK _ _ _ a.intrinsicDim] at h8
          simpa [Nat.add_assoc, Nat.add_comm 1] using h8

theorem analyze_spec (env : Env) (a a' : HubnessAnalysis) (s : String) (hubK knnK : List ℤ) (err : Option PyErr)
    (h : analyze env a s hubK knnK = (a', err)) :
    (a' = a ∧ ∃ e l d X, err = some e ∧ a.vectors = some ⟨l, d, X⟩ ∧
      IntDim.intrinsicDimension env.lex X 6 12 "mackay" "vector" none 5000 = .error e) ∨
    ∃ (done rest : List String) (new : List Experiment), split s = done ++ rest ∧
      a'.experiments = a.experiments ++ new ∧ a'.n = a.n ∧
      new.length = done.length ∧
      (∀ (i : ℕ) (h : i < done.length) (h' : i < new.length), experiment env a hubK knnK i done[i] = .ok new[i]) ∧
      ((rest = [] ∧ err = none) ∨
        ∃ kind rest' e, rest = kind :: rest' ∧ err = some e ∧
          experiment env a hubK knnK done.length kind = .error e) := by
  obtain ⟨n, m, D, classes, vectors, metric, dim, exps⟩ := a
  unfold analyze at h
  rcases vectors with _ | ⟨l, d, X⟩
  · obtain ⟨done, rest, new, h1, h2, h3, h4, h5⟩ := loop_spec env hubK knnK (split s) 0 _ _ _ h
    refine Or.inr ⟨done, rest, new, h1, by rw [h2], by rw [h2], h3, ?_, ?_⟩
    · intro i hi hi'
      have := h4 i hi hi'
      rw [Nat.zero_add] at this
      exact this
    · rcases h5 with h5 | ⟨k, r, er, h6, h7, h8⟩
      · exact Or.inl h5
      · rw [Nat.zero_add] at h8
        exact Or.inr ⟨k, r, er, h6, h7, h8⟩
  · simp only at h
    cases hi : IntDim.intrinsicDimension env.lex X 6 12 "mackay" "vector" none 5000 with
    | error e =>
      rw [hi] at h
      cases h
      exact Or.inl ⟨rfl, e, l, d, X, rfl, rfl, hi⟩
    | ok dim =>
      rw [hi] at h
      obtain ⟨done, rest, new, h1, h2, h3, h4, h5⟩ := loop_spec env hubK knnK (split s) 0 _ _ _ h
      refine Or.inr ⟨done, rest, new, h1, by rw [h2], by rw [h2], h3, ?_, ?_⟩
      · intro i hi hi'
        have := h4 i hi hi'
        rw [Nat.zero_add] at this
        exact this
      · rcases h5 with h5 | ⟨k, r, er, h6, h7, h8⟩
        · exact Or.inl h5
        · rw [Nat.zero_add] at h8
          exact Or.inr ⟨k, r, er, h6, h7, h8⟩

end HubToolbox.Analysis
