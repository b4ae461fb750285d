import Verif.Approx.GaussFormula
import Verif.Approx.LocalSample

/-!
# C129: exactly which secondary distances are undefined
-/

set_option autoImplicit false

namespace HubToolbox.Approx

/-- No normal distribution can be fitted to values which are all the same. -/
theorem normSf_list_nan (F : MPPar.Dists) (x : ℝ) (l : List ℝ) :
    MPPar.normSf F x (MPPar.nanmean l) (XR.sqrt (MPPar.nanvar 0 l)) = .nan ↔ ∃ r, ∀ y ∈ l, y = r := by
  by_cases hl : l = []
  · subst hl
    simp only [List.not_mem_nil, false_imp_iff, implies_true, exists_const, iff_true]
    rfl
  have hlen : 0 < l.length := List.length_pos_iff.2 hl
  have hlen' : (0 : ℝ) < l.length := by exact_mod_cast hlen
  set m := l.sum / l.length with hm
  set V := (l.map (fun x => (x - m) ^ 2)).sum with hV
  have hnn : ∀ v ∈ l.map (fun x => (x - m) ^ 2), 0 ≤ v := by
    intro v hv
    obtain ⟨y, -, rfl⟩ := List.mem_map.1 hv
    positivity
  have hV0 : 0 ≤ V := List.sum_nonneg hnn
  have hvar : MPPar.nanvar 0 l = .fin (V / l.length) := by
    unfold MPPar.nanvar
    rw [if_neg (by omega)]
    simp [hV, hm]
  have hsq : XR.sqrt (.fin (V / l.length)) = .fin (√(V / l.length)) := MPPar.sqrt_fin (div_nonneg hV0 hlen'.le)
  rw [hvar, hsq]
  unfold MPPar.nanmean
  rw [if_neg hl]
  unfold MPPar.normSf MPPar.normCdf
  simp only
  have hall : (∃ r, ∀ y ∈ l, y = r) ↔ V = 0 := by
    constructor
    · rintro ⟨r, hr⟩
      have hsum : l.sum = l.length * r := by
        rw [List.eq_replicate_of_mem hr]; simp
      have hmr : m = r := by rw [hm, hsum]; field_simp
      rw [hV]
      refine List.sum_eq_zero fun v hv => ?_
      obtain ⟨y, hy, rfl⟩ := List.mem_map.1 hv
      rw [hr y hy, hmr]; simp
    · intro h0
      refine ⟨m, fun y hy => ?_⟩
      have hle : (y - m) ^ 2 ≤ V := List.single_le_sum hnn _ (List.mem_map_of_mem hy)
      rw [h0] at hle
      have := pow_eq_zero_iff (two_ne_zero) |>.1 (le_antisymm hle (sq_nonneg _))
      linarith
  rw [hall]
  by_cases h0 : V = 0
  · rw [if_neg (by rw [h0]; simp)]
    simp [h0, XR.sub, XR.neg, XR.add]
  · have hp : 0 < √(V / l.length) := Real.sqrt_pos.2 (div_pos (lt_of_le_of_ne hV0 (Ne.symm h0)) hlen')
    rw [if_pos hp]
    simp [h0, XR.sub, XR.neg, XR.add]

/-- A survival probability is a number or `nan`. -/
theorem normSf_cases (F : MPPar.Dists) (x : ℝ) (m s : XR ℝ) :
    MPPar.normSf F x m s = .nan ∨ ∃ v, MPPar.normSf F x m s = .fin v := by
  unfold MPPar.normSf MPPar.normCdf
  split
  · split_ifs
    · exact Or.inr ⟨_, rfl⟩
    · exact Or.inl rfl
  · exact Or.inl rfl

/-- **C129**: a secondary distance is undefined exactly if all vantage points are at the same distance from the test object, or all other
vantage points at the same distance from the vantage point of the column (with sampling: at distance zero). All other values are in the
unit interval (`C129_range_partial`). -/
theorem C129_nan_iff {P : Type} (F : MPPar.Dists) (w : World ℝ) (dist : String → P → P → ℝ) (metric : String)
    (smp : Sampling) (nSamples : ℕ) {n t : ℕ} (X : Fin n → P) (T : Fin t → P) (out : Out ℝ t n)
    (h : suqhrMPG F w dist metric smp nSamples X T = .ok out) (i : Fin t) (c : Fin out.ind.length) :
    out.dist i c = .nan ↔
      (∃ r, ∀ b, dist metric (T i) (X (out.ind.get b)) = r) ∨
      (smp = .all ∧ ∃ r, ∀ b, b ≠ c → dist metric (X (out.ind.get b)) (X (out.ind.get c)) = r) ∨
      (smp ≠ .all ∧ ∀ b, b ≠ c → dist metric (X (out.ind.get c)) (X (out.ind.get b)) = 0) := by
  obtain ⟨_, _, hd⟩ := suqhrMPG_char F w dist metric smp nSamples X T out h
  rw [hd]
  unfold mpgRow
  simp only
  have hprod : ∀ a b : XR ℝ, (a = .nan ∨ ∃ v, a = .fin v) → (b = .nan ∨ ∃ v, b = .fin v) →
      (XR.sub (.fin 1) (XR.mul a b) = .nan ↔ a = .nan ∨ b = .nan) := by
    rintro a b (rfl | ⟨u, rfl⟩) (rfl | ⟨v, rfl⟩) <;> simp [XR.sub, XR.neg, XR.add, XR.mul]
  rw [hprod _ _ (normSf_cases _ _ _ _) (normSf_cases _ _ _ _), normSf_list_nan]
  refine or_congr ?_ ?_
  · simp
  · unfold mpgMoments
    by_cases hs : smp = .all
    · simp only [hs, if_true, true_and, ne_eq, not_true_eq_false, false_and, or_false]
      rw [normSf_list_nan]
      unfold MPPar.colVals
      simp only [List.mem_map, List.mem_filter, List.mem_finRange, true_and, decide_eq_true_eq, forall_exists_index, and_imp,
        forall_apply_eq_imp_iff₂]
    · simp only [hs, if_false, false_and, ne_eq, not_false_eq_true, true_and, false_or]
      rw [normSf_list_nan]
      simp only [List.mem_map, List.mem_finRange, true_and, forall_exists_index, forall_apply_eq_imp_iff]
      constructor
      · rintro ⟨r, hr⟩ b hb
        have h0 := hr c
        have h1 := hr b
        unfold Np.fillDiagonal at h0 h1
        rw [if_pos rfl] at h0
        rw [if_neg (fun e : c.val = b.val => hb (Fin.ext e).symm)] at h1
        exact h1.trans h0.symm
      · intro hz
        refine ⟨0, fun b => ?_⟩
        unfold Np.fillDiagonal
        by_cases hb : b = c
        · rw [if_pos (by rw [hb])]
        · rw [if_neg (fun e : c.val = b.val => hb (Fin.ext e).symm)]
          exact hz b hb

/-- Four objects on a line and one test object: both spreads are positive, and the call succeeds. -/
example (F : MPPar.Dists) : ∃ out : Out ℝ 1 4, suqhrMPG F realWorld sqr "cosine" .random 3 pts (fun _ => 5) = .ok out ∧
    ∀ (i : Fin 1) (c : Fin out.ind.length), out.dist i c = .nan ↔
      (∃ r, ∀ b, sqr "cosine" 5 (pts (out.ind.get b)) = r) ∨
      ∀ b, b ≠ c → sqr "cosine" (pts (out.ind.get c)) (pts (out.ind.get b)) = 0 :=
  ⟨_, rfl, fun i c => (C129_nan_iff F realWorld sqr "cosine" .random 3 pts (fun _ => 5) _ rfl i c).trans (by simp)⟩

end HubToolbox.Approx
