import Verif.Analysis.Success
import Verif.Cent.Localized
import Verif.Cent.Weighted
import Verif.Cent.Local
import Verif.MPPar.Real

/-!
# Which secondary distances an experiment evaluates (C223)

For an analysis of distances, the matrix of each kind of experiment in terms of the distances and vectors given.
-/

set_option autoImplicit false

namespace HubToolbox.Analysis

theorem secondary_of {env : Env} {a : HubnessAnalysis} {hubK knnK : List ℤ} {t : ℕ} {kind : String} {e : Experiment}
    (h : experiment env a hubK knnK t kind = .ok e) {S : PyMat (XR ℝ)} (hS : secondary env a kind = .ok S) : e.secondary = S := by
  have := (experiment_inv h).sec
  rw [hS] at this
  exact (Except.ok.inj this).symm

theorem training_none (n : ℕ) : Spec.training n none = Finset.univ := by simp [Spec.training]

/-- Without objects the matrix is empty. -/
theorem secondary_zero {env : Env} {a : HubnessAnalysis} {hubK knnK : List ℤ} {t : ℕ} {kind : String} {e : Experiment}
    (h : experiment env a hubK knnK t kind = .ok e) (hn : a.n = 0) (M : Fin a.n → Fin a.n → XR ℝ) :
    e.secondary = .mat false a.n a.n M := by
  obtain ⟨M', hM⟩ := (experiment_inv h).shape
  rw [hM]
  congr 1
  funext i
  exact absurd i.pos (by omega)

/-- Distances of vectors `1 - cos` with zeros on the diagonal. -/
theorem cosineDistance_eq {n d : ℕ} (C : Fin n → Fin d → ℝ) (hC : ∀ i, C i ≠ 0) :
    cosineDistance (fun i f => .fin (C i f)) = fun i j => .fin (if i = j then 0 else 1 - Spec.cosine (C i) (C j)) := by
  funext i j
  unfold cosineDistance Dist.triu1
  beta_reduce
  rcases lt_trichotomy i j with h | h | h
  · rw [if_pos h, if_neg h.not_gt, if_neg h.ne, Cent.cosPair_eq _ _ (hC i) (hC j)]
    change XR.fin (_ + 0) = _
    rw [add_zero]
  · subst h
    rw [if_neg (lt_irrefl _), if_pos rfl]
    change XR.fin (0 + 0) = _
    rw [add_zero]
  · rw [if_neg h.not_gt, if_pos h, if_neg h.ne', Cent.cosPair_eq _ _ (hC j) (hC i)]
    change XR.fin (0 + _) = _
    rw [zero_add, show Spec.cosine (C j) (C i) = Spec.cosine (C i) (C j) from ?_]
    unfold Spec.cosine Spec.inner
    rw [mul_comm (Spec.norm (C j))]
    congr 1
    exact Finset.sum_congr rfl fun f _ => mul_comm _ _

section
variable (env : Env) {n : ℕ} (D : Fin n → Fin n → ℝ) (classes : Option (Σ l : ℕ, Fin l → ℤ))
  (vectors : Option (Σ l d : ℕ, Fin l → Fin d → ℝ)) (hubK knnK : List ℤ) (t : ℕ) (e : Experiment)

/-- **C223** (original distances). -/
theorem C223_orig (metric : String) (h : experiment env (.init D classes vectors metric) hubK knnK t "orig" = .ok e) :
    e.secondary = .mat false n n (fun i j => .fin (D i j)) := secondary_of h rfl

/-- **C223** (Mutual Proximity): one minus the fraction of objects which are farther from both. -/
theorem C223_mp (hD : ∀ i j, D i j = D j i)
    (h : experiment env (.init D classes vectors "distance") hubK knnK t "mp" = .ok e) :
    e.secondary = .mat false n n (fun i j => .fin (Spec.mpDistance (fun i j => .fin (D i j)) i j)) := by
  obtain ⟨R, hR⟩ := (MPEmp.C20_full_succeeds_iff env.order (fun i j => .fin (D i j)) false "distance" none 0).2
    ⟨Or.inl rfl, by simp, by simp⟩
  obtain ⟨M, rfl⟩ : ∃ M, R = .dense n M := by
    have := hR
    unfold MPEmp.full at this
    simp only [dite_true] at this
    obtain ⟨_, -, this⟩ := bind_ok this
    exact ⟨_, (Except.ok.inj this).symm⟩
  have hM := fun i j => (MPEmp.C21_computes_definition env.order _ false "distance" none 0 M hR
    (by intro i j; simp only [hD i j]) i j).1 rfl
  refine secondary_of h ?_
  change untype ((MPEmp.full env.order (.obj (.mat false n n (fun i j => .fin (D i j)))) "distance" none 0).map ofResult) = _
  rw [hR]
  simp only [← hM]
  rfl

/-- **C223** (Mutual Proximity with normal distributions). -/
theorem C223_gaussi (hF : env.dists = MPPar.scipy) (hD : ∀ i j, D i j = D j i)
    (hsd : ∀ j, Spec.stdDev (Finset.univ.erase j) (D j) ≠ 0)
    (h : experiment env (.init D classes vectors "distance") hubK knnK t "mp_gaussi" = .ok e) :
    ∃ M : Fin n → Fin n → ℝ, e.secondary = .mat false n n (fun i j => .fin (M i j)) ∧ (∀ i, M i i = 0) ∧
      ∀ i j, i ≠ j → 1 - M i j = ((Spec.fittedNormal (Finset.univ.erase i) (D i)).prod
        (Spec.fittedNormal (Finset.univ.erase j) (D j))).real {p | D i j < p.1 ∧ D i j < p.2} := by
  obtain ⟨M, hM, hf⟩ := (MPPar.C220_gaussi D hD 30 none (by rw [training_none]; exact hsd)).1
  rw [training_none] at hf
  have h0 := MPPar.gaussi_eq MPPar.scipy D "distance" (Or.inr rfl) 30 none
    (fun j => MPPar.nonempty_of_std (f := D j) (by rw [training_none]; exact hsd j))
  have hd : ∀ i, M i i = 0 := by
    intro i
    rw [hM] at h0
    have := Except.ok.inj h0
    simp only [Sigma.mk.injEq, heq_eq_eq, true_and] at this
    have := XR.fin.inj (congrFun (congrFun this i) i)
    rw [this]
    unfold MPPar.gaussM
    rw [if_pos rfl]
    unfold Spec.ownValue
    simp
  refine ⟨M, secondary_of h ?_, hd, fun i j hij => (hf i j hij).1⟩
  change untype ((MPPar.gaussi env.dists (.mat false n n D) "distance" 0 30 none none).map
    (fun r => PyMat.mat false r.1 r.2.1 r.2.2)) = _
  rw [hF, hM]
  rfl

/-- **C223** (Mutual Proximity with Gamma distributions). -/
theorem C223_gammai (hF : env.dists = MPPar.scipy) (hD : ∀ i j, D i j = D j i) (h3 : 3 ≤ n)
    (hmu : ∀ j, 0 < Spec.meanOver (Finset.univ.erase j) (D j))
    (hv : ∀ j, Spec.sampleVariance (Finset.univ.erase j) (D j) ≠ 0)
    (h : experiment env (.init D classes vectors "distance") hubK knnK t "mp_gammai" = .ok e) :
    ∃ M : Fin n → Fin n → ℝ, e.secondary = .mat false n n (fun i j => .fin (M i j)) ∧ (∀ i, M i i = 0) ∧
      ∀ i j, i ≠ j → 1 - M i j = ((Spec.fittedGamma (Finset.univ.erase i) (D i)).prod
        (Spec.fittedGamma (Finset.univ.erase j) (D j))).real {p | D i j < p.1 ∧ D i j < p.2} := by
  have hc : ∀ j : Fin n, 2 ≤ ((Spec.training n none).erase j).card := by
    intro j
    rw [training_none, Finset.card_erase_of_mem (Finset.mem_univ _), Finset.card_univ, Fintype.card_fin]
    omega
  obtain ⟨M, hM, hf⟩ := (MPPar.C221_gammai D hD 30 none hc (by rw [training_none]; exact hmu)
    (by rw [training_none]; exact hv)).1
  rw [training_none] at hf
  obtain ⟨M', hM', -, -, h0, -⟩ := MPPar.C27_valid_partial MPPar.scipy D "distance" (Or.inr rfl) 30 none hc
    (by rw [training_none]; intro j; have := hmu j; rwa [show D j = fun c => D c j from funext (hD j)] at this)
  have hd : ∀ i, M i i = 0 := by
    intro i
    rw [hM'] at hM
    have := Except.ok.inj hM
    simp only [Sigma.mk.injEq, heq_eq_eq, true_and] at this
    have := XR.fin.inj (congrFun (congrFun this i) i)
    rw [← this, h0 i]
    unfold Spec.ownValue
    simp
  refine ⟨M, secondary_of h ?_, hd, fun i j hij => (hf i j hij).1⟩
  change untype ((MPPar.gammai env.dists (.mat false n n D) "distance" 30 none).map square) = _
  rw [hF, hM]
  rfl

/-- **C223** (Local Scaling), with the distances `r` to the seventh neighbours. -/
theorem C223_ls (hD : ∀ i j, D i j = D j i) (r : Fin n → ℝ) (hr : ∀ i, Spec.IsKthSmallest (Finset.univ.erase i) (D i) 7 (r i))
    (hpos : ∀ i, 0 < r i) (h : experiment env (.init D classes vectors "distance") hubK knnK t "ls" = .ok e) :
    e.secondary = .mat false n n (fun i j => .fin (if i = j then 0 else Spec.localScaling (D i j) (r i) (r j))) := by
  rcases Nat.eq_zero_or_pos n with rfl | hn
  · exact secondary_zero h rfl _
  have := LS.C28_formula env.ls D hD 7 (by norm_num) none 1 (Or.inr le_rfl) r (by rw [training_none]; exact hr) hpos hn
  refine secondary_of h ?_
  change untype ((LS.localScaling env.ls (.mat false n n (LS.toXR D)) 7 "distance" none 1).map square) = _
  rw [show (7 : ℤ) = ((7 : ℕ) : ℤ) from rfl, this]
  rfl

/-- **C223** (NICDM), with the mean distances to the seven nearest neighbours. -/
theorem C223_nicdm (hD : ∀ i j, D i j = D j i) (N : Fin n → Finset (Fin n))
    (hN : ∀ i, Spec.IsNearest (Finset.univ.erase i) (D i) 7 (N i)) (hpos : ∀ i, 0 < Spec.meanOver (N i) (D i))
    (h : experiment env (.init D classes vectors "distance") hubK knnK t "nicdm" = .ok e) :
    e.secondary = .mat false n n (fun i j => .fin (if i = j then 0 else
      Spec.nicdm (Spec.geometricMean (fun i => Spec.meanOver (N i) (D i))) (D i j) (Spec.meanOver (N i) (D i))
        (Spec.meanOver (N j) (D j)))) := by
  rcases Nat.eq_zero_or_pos n with rfl | hn
  · exact secondary_zero h rfl _
  have := LS.C32_formula env.ls D hD 7 (by norm_num) none 1 N (by rw [training_none]; exact hN) hpos hn
  refine secondary_of h ?_
  change untype ((LS.nicdm env.ls (.mat false n n (LS.toXR D)) 7 "distance" none 1).map square) = _
  rw [this]
  rfl

/-- **C223** (shared neighbours among the ten nearest). -/
theorem C223_snn (hn : 10 < n) (h : experiment env (.init D classes vectors "distance") hubK knnK t "snn" = .ok e) :
    ∃ N : Fin n → Finset (Fin n),
      (∀ i, Spec.IsHood (Spec.nearer "distance") (Finset.univ.erase i) (D i) 10 (N i)) ∧
      e.secondary = .mat false n n (fun i j => .fin (if i = j then 0 else 1 - ((N i ∩ N j).card : ℝ) / 10)) := by
  obtain ⟨N, hN, hS⟩ := SNN.C34_formula env.snn (fun i j => .fin (D i j)) D (fun _ _ _ => rfl) 10 (by norm_num) hn "distance"
    (Or.inl rfl) 1
  refine ⟨N, hN, secondary_of h ?_⟩
  change untype ((SNN.sharedNearestNeighbors env.snn (.mat false n n (fun i j => .fin (D i j))) 10 "distance" 1).map square) = _
  rw [show (10 : ℤ) = ((10 : ℕ) : ℤ) from rfl, hS]
  simp only [Spec.snn, Spec.snnSelf, Spec.commonFraction]
  norm_num
  rfl
end

section
variable (env : Env) {n d : ℕ} (D : Fin n → Fin n → ℝ) (classes : Option (Σ l : ℕ, Fin l → ℤ)) (X : Fin n → Fin d → ℝ)
  (metric : String) (hubK knnK : List ℤ) (t : ℕ) (e : Experiment)

theorem cent_secondary (hn : 0 < n) (hX : ∀ i, X i ≠ Spec.centroid Finset.univ X) :
    secondary env (.init D classes (some ⟨n, d, X⟩) metric) "cent" = .ok (.mat false n n (fun i j => .fin (if i = j then 0 else
      1 - Spec.cosine (fun f => X i f - Spec.centroid Finset.univ X f) (fun f => X j f - Spec.centroid Finset.univ X f)))) := by
  change (Cent.centering X "vector" none).map (fun C => PyMat.mat false n n (cosineDistance C)) = _
  rw [Cent.C37_formula X none (by rw [training_none]; exact ⟨⟨0, hn⟩, Finset.mem_univ _⟩), training_none]
  change Except.ok (PyMat.mat false n n (cosineDistance _)) = _
  rw [cosineDistance_eq]
  intro i h0
  exact hX i (funext fun f => sub_eq_zero.1 (congrFun h0 f))

/-- **C223** (centering): one minus the cosine of the vectors seen from their centroid. -/
theorem C223_cent (hX : ∀ i, X i ≠ Spec.centroid Finset.univ X)
    (h : experiment env (.init D classes (some ⟨n, d, X⟩) metric) hubK knnK t "cent" = .ok e) :
    e.secondary = .mat false n n (fun i j => .fin (if i = j then 0 else
      1 - Spec.cosine (fun f => X i f - Spec.centroid Finset.univ X f) (fun f => X j f - Spec.centroid Finset.univ X f))) := by
  rcases Nat.eq_zero_or_pos n with rfl | hn
  · exact secondary_zero h rfl _
  exact secondary_of h (cent_secondary env D classes X metric hn hX)

/-- **C156 is violated** by centering, too: an analysis of similarities lists the vectors with the *smallest* cosines, seen from
the centroid, as nearest neighbours. -/
theorem C156_cent_violated (hX : ∀ i, X i ≠ Spec.centroid Finset.univ X)
    (h : experiment env (.init D classes (some ⟨n, d, X⟩) "similarity") hubK knnK t "cent" = .ok e) (k : ℤ) (hk : k ∈ hubK) :
    ∃ L : Fin n → List (Fin n), e.hubness k = some (Spec.hubness L) ∧ e.antiHubs k = some (Spec.antiHubs L) ∧
      e.maxHub k = some (Spec.maxHub L) ∧ (∀ i, (L i).Nodup ∧ i ∉ L i ∧ ((L i).length : ℤ) = min k ((n : ℤ) - 1)) ∧
      ∀ i, ∀ j ∈ L i, ∀ b ∉ L i, b ≠ i →
        Spec.cosine (fun f => X i f - Spec.centroid Finset.univ X f) (fun f => X j f - Spec.centroid Finset.univ X f) ≤
        Spec.cosine (fun f => X i f - Spec.centroid Finset.univ X f) (fun f => X b f - Spec.centroid Finset.univ X f) := by
  have key : secondary env (.init D classes (some ⟨n, d, X⟩) "similarity") "cent" = .ok (.mat false n n (fun i j => .fin
      (if i = j then 0 else 1 - Spec.cosine (fun f => X i f - Spec.centroid Finset.univ X f)
        (fun f => X j f - Spec.centroid Finset.univ X f)))) := by
    rw [(experiment_inv h).sec, C223_cent env D classes X "similarity" hubK knnK t e hX h]
  obtain ⟨L, h1, h2, h3, h4, h5⟩ := counted env _ hubK knnK t "cent" e h _ key k hk
  refine ⟨L, h1, h2, h3, h4, fun i j hj b hb hbi => ?_⟩
  have := h5 i j hj b hb hbi
  rw [if_neg (by simp [HubnessAnalysis.init])] at this
  have hij : i ≠ j := by
    rintro rfl
    exact (h4 i).2.1 hj
  rw [if_neg hbi.symm, if_neg hij] at this
  linarith

/-- **C223** (weighted centering). -/
theorem C223_wcent (hX : ∀ i, X i ≠ 0) (hc : Spec.centroid Finset.univ X ≠ 0)
    (hp : ∃ i, Spec.cosine (X i) (Spec.centroid Finset.univ X) ≠ 1) (c : Fin d → ℝ)
    (hcd : ∀ f, c f * ∑ a, (1 - Spec.cosine (X a) (Spec.centroid Finset.univ X)) =
      ∑ a, (1 - Spec.cosine (X a) (Spec.centroid Finset.univ X)) * X a f) (hXc : ∀ i, X i ≠ c)
    (h : experiment env (.init D classes (some ⟨n, d, X⟩) metric) hubK knnK t "wcent" = .ok e) :
    e.secondary = .mat false n n (fun i j => .fin (if i = j then 0 else
      1 - Spec.cosine (fun f => X i f - c f) (fun f => X j f - c f))) := by
  have hn : 0 < n := by
    obtain ⟨i, -⟩ := hp
    exact i.pos
  have hw : ∀ f, ∑ j, Cent.weight X (Spec.centroid Finset.univ X) 1 j * X j f = c f := by
    intro f
    have hs : 0 < ∑ a, (1 - Spec.cosine (X a) (Spec.centroid Finset.univ X)) := by
      obtain ⟨i, hi⟩ := hp
      refine Finset.sum_pos' (fun a _ => by linarith [Cent.cosine_le_one (X a) (Spec.centroid Finset.univ X)])
        ⟨i, Finset.mem_univ _, ?_⟩
      have := lt_of_le_of_ne (Cent.cosine_le_one (X i) (Spec.centroid Finset.univ X)) hi
      linarith
    unfold Cent.weight
    simp only [Real.rpow_one]
    rw [← mul_left_inj' hs.ne', hcd f, Finset.sum_mul]
    refine Finset.sum_congr rfl fun a _ => ?_
    field_simp
  refine secondary_of h ?_
  change (Cent.weightedCentering X "cosine" 1 none).map (fun C => PyMat.mat false n n (cosineDistance C)) = _
  rw [Cent.C39_formula X 1 none hX (by rw [training_none]; exact hc)
    (by rw [training_none]; exact ⟨hn, Or.inl ⟨one_pos, hp⟩⟩), training_none]
  simp only [hw]
  change Except.ok (PyMat.mat false n n (cosineDistance _)) = _
  rw [cosineDistance_eq]
  intro i h0
  exact hXc i (funext fun f => sub_eq_zero.1 (congrFun h0 f))

/-- **C223** (localized centering), with the 40 most similar vectors. -/
theorem C223_lcent (hn : 40 ≤ n) (h : experiment env (.init D classes (some ⟨n, d, X⟩) metric) hubK knnK t "lcent" = .ok e) :
    ∃ N : Fin n → Finset (Fin n),
      (∀ i, Spec.IsHood (Spec.nearer "similarity") Finset.univ (fun j => Spec.cosine (X i) (X j)) 40 (N i)) ∧
      e.secondary = .mat false n n (fun i j => .fin (1 - Spec.cosine (X i) (X j) +
        (∑ a ∈ N j, Spec.cosine (X j) (X a)) / 40)) := by
  obtain ⟨N, hN, hS⟩ := Cent.C87_formula env.snn X X 40 (by norm_num) hn 1 zero_le_one
  refine ⟨N, hN, secondary_of h ?_⟩
  change (Cent.localizedCentering env.snn X none 40 1 1).map
    (fun r => PyMat.mat false n r.1 (fun i j => XR.sub (.fin 1) (r.2 i j))) = _
  rw [Cent.C87_one_argument, show (40 : ℤ) = ((40 : ℕ) : ℤ) from rfl, hS 1]
  change Except.ok (PyMat.mat false n n _) = _
  congr 2
  funext i j
  change XR.fin (1 + -(_ - _)) = _
  congr 1
  unfold Cent.penalty Cent.meanCosine
  beta_reduce
  rw [Real.rpow_one, ite_self, (hN j).card]
  push_cast
  ring

/-- **C223** (DisSim Global). -/
theorem C223_dsg (hn : 0 < n) (hd : 0 < d)
    (h : experiment env (.init D classes (some ⟨n, d, X⟩) metric) hubK knnK t "dsg" = .ok e) :
    e.secondary = .mat false n n (fun i j => .fin (-2 * Spec.inner
      (fun f => X i f - Spec.centroid Finset.univ X f) (fun f => X j f - Spec.centroid Finset.univ X f))) :=
  secondary_of h (dsg_secondary env D X classes metric hn hd)

/-- **C223** (DisSim Local), with the centroids of the ten nearest neighbours. -/
theorem C223_dsl (hn : 10 < n) (hd : 0 < d)
    (h : experiment env (.init D classes (some ⟨n, d, X⟩) metric) hubK knnK t "dsl" = .ok e) :
    ∃ N : Fin n → Finset (Fin n),
      (∀ i, Spec.IsHood (Spec.nearer "distance") (Finset.univ.erase i) (fun j => Spec.sq (X i) (X j)) 10 (N i)) ∧
      e.secondary = .mat false n n (fun i j => if i = j then .ninf else
        .fin (Spec.disSim (X i) (X j) (Spec.centroid (N i) X) (Spec.centroid (N j) X))) := by
  obtain ⟨N, hN, hS⟩ := Cent.C41_formula env.snn X 10 (by norm_num) hn hd
  refine ⟨N, hN, secondary_of h ?_⟩
  change (Cent.disSimLocal env.snn X .float64 none 10 1).map (fun r => PyMat.mat false n r.1 r.2) = _
  rw [show (10 : ℤ) = ((10 : ℕ) : ℤ) from rfl, hS 1]
  rfl
end

/-! ### Examples -/

/-- Three vectors around the origin. -/
def star3 : Fin 3 → Fin 2 → ℝ := ![![1, 0], ![0, 1], ![-1, -1]]

theorem star3_centroid : Spec.centroid Finset.univ star3 = 0 := by
  funext f
  unfold Spec.centroid
  fin_cases f <;> simp [Fin.sum_univ_three, star3]

theorem star3_ne (i : Fin 3) : star3 i ≠ Spec.centroid Finset.univ star3 := by
  rw [star3_centroid]
  intro h
  have h0 := congrFun h 0
  have h1 := congrFun h 1
  fin_cases i <;> simp [star3] at h0 h1

example (env : Env) (D : Fin 3 → Fin 3 → ℝ) (metric : String) (hm : metric = "distance" ∨ metric = "similarity") :
    ∃ e, experiment env (.init D none (some ⟨3, 2, star3⟩) metric) [1] [] 0 "cent" = .ok e ∧
      e.secondary = .mat false 3 3 (fun i j => .fin (if i = j then 0 else 1 - Spec.cosine (star3 i) (star3 j))) := by
  have hv : Valid (.init D none (some ⟨3, 2, star3⟩) metric) "cent" :=
    ⟨rfl, hm, by decide, (fun _ _ h => by cases h), (fun _ _ _ h => by cases h; rfl)⟩
  obtain ⟨e, he⟩ := experiment_ok env _ [1] [] 0 "cent" hv (by change 0 < 3; norm_num) (by decide) _
    (cent_secondary env D none star3 metric (by norm_num) star3_ne)
  refine ⟨e, he, ?_⟩
  have := C223_cent env D none star3 metric [1] [] 0 e star3_ne he
  rw [this]
  simp only [star3_centroid, Pi.zero_apply, sub_zero]

/-- Eight equidistant objects. -/
example (env : Env) (e : Experiment)
    (h : experiment env (.init (fun i j : Fin 8 => if i = j then 0 else 1) none none "distance") [5] [] 0 "ls" = .ok e) :=
  C223_ls env (fun i j : Fin 8 => if i = j then 0 else 1) none none [5] [] 0 e (by intro i j; simp only [eq_comm])
    (fun _ => 1) (fun i => by
      have h : ∀ j ∈ Finset.univ.erase i, (if i = j then (0 : ℝ) else 1) = 1 := fun j hj => if_neg (Finset.ne_of_mem_erase hj).symm
      have hc : (Finset.univ.erase i).card = 7 := by
        rw [Finset.card_erase_of_mem (Finset.mem_univ _), Finset.card_univ, Fintype.card_fin]
      obtain ⟨j, hj⟩ : (Finset.univ.erase i).Nonempty := Finset.card_pos.1 (by rw [hc]; norm_num)
      refine ⟨⟨j, hj, h j hj⟩, ?_, ?_⟩
      · rw [Finset.filter_false_of_mem (fun j hj => by rw [h j hj]; exact lt_irrefl _)]
        norm_num
      · rw [Finset.filter_true_of_mem (fun j hj => (h j hj).le), hc]) (fun _ => one_pos) h

end HubToolbox.Analysis
