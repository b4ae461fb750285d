import Verif.Approx.LocalModel
import Verif.Approx.MP
import Verif.LS.Sample
import Verif.Cent.Spec
import Verif.MPPar.Lemmas

/-!
# Properties of the other methods with fixed vantage points
-/

set_option autoImplicit false

namespace HubToolbox.Approx

open HubToolbox

/-! ### Without hubness reduction -/

/-- C126: without hubness reduction, the result are the distances to the vantage points. -/
theorem C126_formula {P : Type} (w : World ℝ) (dist : String → P → P → ℝ) (metric : String) (hm : VMetric metric)
    (smp : Sampling) (nSamples : ℕ) {n t : ℕ} (X : Fin n → P) (T : Fin t → P) (out : Out ℝ t n)
    (h : suqhrPlain w dist metric smp nSamples X T = .ok out) (i : Fin t) (c : Fin out.ind.length) :
    out.dist i c = .fin (dist metric (T i) (X (out.ind.get c))) := by
  unfold suqhrPlain at h
  cases hv : vantage w (fun i j => dist metric (X i) (X j)) metric smp nSamples with
  | error e => rw [hv] at h; cases h
  | ok ind =>
    rw [hv] at h
    have h' := (Except.ok.inj h).symm
    subst h'
    have hm' : metric = "sqeuclidean" ∨ metric = "cosine" := hm
    simp only [hm', if_true]

/-! ### Metric `'precomputed'` -/

/-- C127 is violated: `'precomputed'` is among the accepted metrics, but no method works with it. Without hubness
reduction the given distances are silently taken as vectors. -/
theorem C127_plain_violated {P : Type} (w : World ℝ) (dist : String → P → P → ℝ) {n t : ℕ} (X : Fin n → P)
    (T : Fin t → P) (nSamples : ℕ) : ∃ out, suqhrPlain w dist "precomputed" .all nSamples X T = .ok out ∧
      ∀ i c, out.dist i c = .fin (dist "sqeuclidean" (T i) (X (out.ind.get c))) := by
  have : ∃ out, suqhrPlain w dist "precomputed" .all nSamples X T = .ok out ∧
      out.dist = fun i c => .fin (dist "sqeuclidean" (T i) (X (out.ind.get c))) := ⟨_, rfl, rfl⟩
  obtain ⟨out, h, hd⟩ := this
  exact ⟨out, h, fun i c => by rw [hd]⟩

/-- C127 is violated: the other methods raise. Without sampling, Mutual Proximity raises `ValueError`, and local scaling
and NICDM raise `UnboundLocalError`. -/
theorem C127_methods_violated {P : Type} (F : MPPar.Dists) (w : World ℝ) (o : ArgPart (XR ℝ))
    (dist : String → P → P → ℝ) (nSamples k : ℕ) (nJobs : ℤ) {n t : ℕ} (X : Fin n → P) (T : Fin t → P) (nic : Bool) :
    suqhrMP w dist "precomputed" .all nSamples nJobs X T = .error .valueError ∧
    suqhrMPG F w dist "precomputed" .all nSamples X T = .error .valueError ∧
    suqhrLS w o dist "precomputed" .all nSamples nic k X T = .error .unboundLocalError := ⟨rfl, rfl, rfl⟩

/-! ### Mutual Proximity with normal distributions -/

theorem list_nanmean {s : ℕ} (hs : 0 < s) (d : Fin s → ℝ) :
    MPPar.nanmean ((List.finRange s).map d) = .fin (Spec.meanOver Finset.univ d) := by
  unfold MPPar.nanmean Spec.meanOver
  have hne : (List.finRange s).map d ≠ [] := by
    intro h
    have := congrArg List.length h
    simp at this
    omega
  rw [if_neg hne, List.length_map, List.length_finRange, Finset.card_univ, Fintype.card_fin]
  rfl

theorem list_nanvar {s : ℕ} (hs : 0 < s) (d : Fin s → ℝ) :
    MPPar.nanvar 0 ((List.finRange s).map d) = .fin (Spec.variance Finset.univ d) := by
  unfold MPPar.nanvar Spec.variance Spec.meanOver
  rw [List.length_map, List.length_finRange, if_neg (by omega), List.map_map, Finset.card_univ, Fintype.card_fin]
  congr 2
  simp

theorem list_sd {s : ℕ} (hs : 0 < s) (d : Fin s → ℝ) :
    XR.sqrt (MPPar.nanvar 0 ((List.finRange s).map d)) = .fin (Spec.stdDev Finset.univ d) := by
  rw [list_nanvar hs, MPPar.sqrt_fin (MPPar.variance_nonneg _ _)]
  rfl

theorem suqhrMPG_char {P : Type} (F : MPPar.Dists) (w : World ℝ) (dist : String → P → P → ℝ) (metric : String)
    (smp : Sampling) (nSamples : ℕ) {n t : ℕ} (X : Fin n → P) (T : Fin t → P) (out : Out ℝ t n)
    (h : suqhrMPG F w dist metric smp nSamples X T = .ok out) :
    vantage w (fun i j => dist metric (X i) (X j)) metric smp nSamples = .ok out.ind ∧ VMetric metric ∧
      ∀ i, out.dist i = mpgRow F (fun b => dist metric (T i) (X (out.ind.get b)))
        (mpgMoments smp (fun a b => dist metric (X (out.ind.get a)) (X (out.ind.get b)))) := by
  unfold suqhrMPG at h
  cases hv : vantage w (fun i j => dist metric (X i) (X j)) metric smp nSamples with
  | error e => rw [hv] at h; cases h
  | ok ind =>
    rw [hv] at h
    simp only [bind, Except.bind, pure, Except.pure] at h
    split at h
    · cases h
    · next hm =>
      have h' := (Except.ok.inj h).symm
      subst h'
      refine ⟨rfl, ?_, fun i => rfl⟩
      by_contra hc
      unfold VMetric at hc
      push Not at hc
      exact hm hc

/-- C128 holds without sampling: the secondary distance is one minus the probability that an independent normal variable
with the moments of the test object's distances, and one with the moments of the distances between the training object
and all others, are both larger. -/
theorem C128_formula_partial {P : Type} (F : MPPar.Dists) (w : World ℝ) (dist : String → P → P → ℝ) (metric : String)
    (nSamples : ℕ) {n t : ℕ} (hn : 2 ≤ n) (X : Fin n → P) (T : Fin t → P) (out : Out ℝ t n)
    (h : suqhrMPG F w dist metric .all nSamples X T = .ok out) (i : Fin t) (c : Fin out.ind.length)
    (h1 : 0 < Spec.stdDev Finset.univ (fun b => dist metric (T i) (X (out.ind.get b))))
    (h2 : 0 < Spec.stdDev (Finset.univ.erase c) (fun a => dist metric (X (out.ind.get a)) (X (out.ind.get c)))) :
    out.dist i c = .fin (Spec.mutualProximity "distance"
      (F.phi ((dist metric (T i) (X (out.ind.get c)) -
        Spec.meanOver Finset.univ (fun b => dist metric (T i) (X (out.ind.get b)))) /
          Spec.stdDev Finset.univ (fun b => dist metric (T i) (X (out.ind.get b)))))
      (F.phi ((dist metric (T i) (X (out.ind.get c)) -
        Spec.meanOver (Finset.univ.erase c) (fun a => dist metric (X (out.ind.get a)) (X (out.ind.get c)))) /
          Spec.stdDev (Finset.univ.erase c) (fun a => dist metric (X (out.ind.get a)) (X (out.ind.get c)))))) := by
  obtain ⟨hv, _, hd⟩ := suqhrMPG_char F w dist metric .all nSamples X T out h
  have hind : out.ind = List.finRange n := (Except.ok.inj hv).symm
  have hlen : out.ind.length = n := by rw [hind, List.length_finRange]
  rw [hd]
  unfold mpgRow mpgMoments
  simp only [if_true]
  rw [list_nanmean (by omega), list_sd (by omega)]
  have hne : ((List.finRange out.ind.length).toFinset.erase c).Nonempty := by
    rw [← Finset.card_pos, Finset.card_erase_of_mem (by simp), List.toFinset_card_of_nodup (List.nodup_finRange _),
      List.length_finRange]
    omega
  have htf : (List.finRange out.ind.length).toFinset = Finset.univ := by ext; simp
  rw [MPPar.nanmean_col _ _ (List.nodup_finRange _) c hne, MPPar.nanvar0_col _ _ (List.nodup_finRange _) c hne,
    MPPar.sqrt_fin (MPPar.variance_nonneg _ _), htf]
  have := MPPar.gaussEntry_fin F "distance" (dist metric (T i) (X (out.ind.get c))) 
    (Spec.meanOver Finset.univ (fun b => dist metric (T i) (X (out.ind.get b)))) _
    (Spec.meanOver (Finset.univ.erase c) (fun a => dist metric (X (out.ind.get a)) (X (out.ind.get c)))) _ h1 h2
  unfold MPPar.gaussEntry at this
  rw [if_neg (by decide)] at this
  exact this

/-- C128 is violated with sampling: the mean of the distances of a vantage point includes the zero distance to itself, so
it is too small unless all distances are zero. -/
theorem C128_violated (smp : Sampling) (hs : smp ≠ .all) {s : ℕ} (D : Fin s → Fin s → ℝ) (j : Fin s) :
    (mpgMoments smp D j).1 = .fin ((1 - 1 / (s : ℝ)) * Spec.meanOver (Finset.univ.erase j) (D j)) ∧
      (0 < Spec.meanOver (Finset.univ.erase j) (D j) →
        (mpgMoments smp D j).1 < .fin (Spec.meanOver (Finset.univ.erase j) (D j))) := by
  have h0 : 0 < s := j.pos
  have hs' : (s : ℝ) ≠ 0 := by exact_mod_cast h0.ne'
  have key : (mpgMoments smp D j).1 = .fin ((1 - 1 / (s : ℝ)) * Spec.meanOver (Finset.univ.erase j) (D j)) := by
    unfold mpgMoments
    simp only [if_neg hs]
    rw [list_nanmean h0]
    congr 1
    unfold Spec.meanOver
    rw [Finset.card_erase_of_mem (Finset.mem_univ _), Finset.card_univ, Fintype.card_fin]
    rw [← Finset.add_sum_erase _ _ (Finset.mem_univ j)]
    have hj : Np.fillDiagonal D 0 j j = 0 := by simp [Np.fillDiagonal]
    have he : ∑ x ∈ Finset.univ.erase j, Np.fillDiagonal D 0 j x = ∑ x ∈ Finset.univ.erase j, D j x := by
      refine Finset.sum_congr rfl (fun x hx => ?_)
      have : j.val ≠ x.val := fun h => (Finset.ne_of_mem_erase hx) (Fin.ext h.symm)
      simp [Np.fillDiagonal, this]
    rw [hj, he, zero_add, Nat.cast_sub h0]
    rcases Nat.lt_or_ge 1 s with h1 | h1
    · have : ((s : ℝ) - 1) ≠ 0 := by
        have : (1 : ℝ) < s := by exact_mod_cast h1
        linarith
      push_cast
      field_simp
    · have : s = 1 := by omega
      subst this
      have : (Finset.univ.erase j : Finset (Fin 1)) = ∅ := by
        ext x
        simp [Subsingleton.elim x j]
      rw [this]; simp
  refine ⟨key, fun hp => ?_⟩
  rw [key]
  have : (0 : ℝ) < 1 / s := by positivity
  change XR.fin _ < XR.fin _
  rw [XR.fin_lt_fin]
  nlinarith

/-- C129 holds up to undefined values: every secondary distance is `nan` or in the unit interval. Without sampling it is not
`nan` if the distances vary (`C128_formula_partial`). -/
theorem C129_range_partial {P : Type} (F : MPPar.Dists) (w : World ℝ) (dist : String → P → P → ℝ) (metric : String)
    (smp : Sampling) (nSamples : ℕ) {n t : ℕ} (X : Fin n → P) (T : Fin t → P) (out : Out ℝ t n)
    (h : suqhrMPG F w dist metric smp nSamples X T = .ok out) (i : Fin t) (c : Fin out.ind.length) :
    out.dist i c = .nan ∨ ∃ v, out.dist i c = .fin v ∧ 0 ≤ v ∧ v ≤ 1 := by
  obtain ⟨_, _, hd⟩ := suqhrMPG_char F w dist metric smp nSamples X T out h
  rw [hd]
  unfold mpgRow
  have hsf : ∀ x m s, MPPar.normSf F x m s = .nan ∨ ∃ v, MPPar.normSf F x m s = .fin v ∧ 0 ≤ v ∧ v ≤ 1 := by
    intro x m s
    unfold MPPar.normSf MPPar.normCdf
    split
    · split_ifs
      · next m s _ =>
        refine Or.inr ⟨1 - F.phi ((x - m) / s), ?_, ?_, ?_⟩
        · simp [XR.sub, XR.neg, XR.add, sub_eq_add_neg]
        · linarith [F.phi_le_one ((x - m) / s)]
        · linarith [F.phi_nonneg ((x - m) / s)]
      · exact Or.inl rfl
    · exact Or.inl rfl
  simp only
  rcases hsf (dist metric (T i) (X (out.ind.get c)))
    (MPPar.nanmean ((List.finRange out.ind.length).map (fun b => dist metric (T i) (X (out.ind.get b)))))
    (XR.sqrt (MPPar.nanvar 0 ((List.finRange out.ind.length).map (fun b => dist metric (T i) (X (out.ind.get b))))))
    with h1 | ⟨v, h1, hv0, hv1⟩
  · left; rw [h1]; rfl
  · rcases hsf (dist metric (T i) (X (out.ind.get c)))
      (mpgMoments smp (fun a b => dist metric (X (out.ind.get a)) (X (out.ind.get b))) c).1
      (mpgMoments smp (fun a b => dist metric (X (out.ind.get a)) (X (out.ind.get b))) c).2
      with h2 | ⟨u, h2, hu0, hu1⟩
    · left; rw [h1, h2]; rfl
    · right
      rw [h1, h2]
      refine ⟨1 - v * u, by simp [XR.mul, XR.sub, XR.neg, XR.add, sub_eq_add_neg], ?_, ?_⟩
      · nlinarith
      · nlinarith

/-- C129 is violated: if all vantage points are at the same distance from a test object, its secondary distances are
`nan`, whatever the data are otherwise. -/
theorem C129_violated {P : Type} (F : MPPar.Dists) (w : World ℝ) (dist : String → P → P → ℝ) (metric : String)
    (smp : Sampling) (nSamples : ℕ) {n t : ℕ} (X : Fin n → P) (T : Fin t → P) (out : Out ℝ t n)
    (h : suqhrMPG F w dist metric smp nSamples X T = .ok out) (i : Fin t) (r : ℝ)
    (hr : ∀ x, dist metric (T i) (X x) = r) (c : Fin out.ind.length) : out.dist i c = .nan := by
  obtain ⟨_, _, hd⟩ := suqhrMPG_char F w dist metric smp nSamples X T out h
  rw [hd]
  unfold mpgRow
  simp only [hr]
  have hpos : 0 < out.ind.length := c.pos
  have hsd : XR.sqrt (MPPar.nanvar 0 ((List.finRange out.ind.length).map (fun _ => r))) = .fin 0 := by
    rw [list_sd hpos]
    unfold Spec.stdDev Spec.variance Spec.meanOver
    have : (out.ind.length : ℝ) ≠ 0 := by exact_mod_cast hpos.ne'
    simp [this]
  rw [hsd, list_nanmean hpos]
  unfold MPPar.normSf MPPar.normCdf
  simp only [lt_irrefl, if_false]
  rfl

end HubToolbox.Approx
