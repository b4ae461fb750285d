import Verif.MPPar.Model
import Verif.MPPar.Spec
import Verif.LS.Lemmas
import Verif.LS.Sample
import Verif.MPEmp.Lemmas
import Verif.Cent.Lemmas

/-!
# Lemmas about parametric Mutual Proximity
-/

set_option autoImplicit false

namespace HubToolbox.MPPar

open HubToolbox

theorem fillUpper_eq {n : ℕ} (v : XR ℝ) (f : Fin n → Fin n → XR ℝ) : fillUpper v f = LS.mirror v f := by
  funext i j
  unfold fillUpper LS.mirror
  simp only [Np.fillDiagonal, MPEmp.foldl_setRowFrom f (fun i => i.val + 1), List.mem_finRange, true_and]
  by_cases hij : i = j
  · simp [hij]
  rcases lt_or_gt_of_ne hij with h | h
  · have h1 : i.val + 1 ≤ j.val := h
    have h2 : ¬ j.val + 1 ≤ i.val := by omega
    simp [hij, h, h1, h2, Fin.val_ne_of_ne hij]
  · have h1 : j.val + 1 ≤ i.val := h
    have h2 : ¬ i.val + 1 ≤ j.val := by omega
    simp [hij, h.not_gt, h1, h2, Fin.val_ne_of_ne hij]

theorem sum_filter_ne {n : ℕ} (rows : List (Fin n)) (hr : rows.Nodup) (j : Fin n) (g : Fin n → ℝ) :
    ((rows.filter (fun i => decide (i ≠ j))).map g).sum = ∑ i ∈ rows.toFinset.erase j, g i := by
  rw [← List.sum_toFinset _ (hr.filter _)]
  refine Finset.sum_congr ?_ (fun _ _ => rfl)
  ext i
  simp [and_comm]

theorem colVals_length {n : ℕ} (D : Fin n → Fin n → ℝ) (rows : List (Fin n)) (hr : rows.Nodup) (j : Fin n) :
    (colVals D rows j).length = (rows.toFinset.erase j).card := by
  unfold colVals
  rw [List.length_map, ← List.toFinset_card_of_nodup (hr.filter _)]
  congr 1
  ext i
  simp [and_comm]

theorem colVals_sum {n : ℕ} (D : Fin n → Fin n → ℝ) (rows : List (Fin n)) (hr : rows.Nodup) (j : Fin n) :
    (colVals D rows j).sum = ∑ i ∈ rows.toFinset.erase j, D i j := sum_filter_ne rows hr j _

theorem colVals_mean {n : ℕ} (D : Fin n → Fin n → ℝ) (rows : List (Fin n)) (hr : rows.Nodup) (j : Fin n) :
    (colVals D rows j).sum / (colVals D rows j).length = Spec.meanOver (rows.toFinset.erase j) (fun i => D i j) := by
  rw [colVals_sum D rows hr, colVals_length D rows hr]
  rfl

theorem colVals_sq {n : ℕ} (D : Fin n → Fin n → ℝ) (rows : List (Fin n)) (hr : rows.Nodup) (j : Fin n) (m : ℝ) :
    ((colVals D rows j).map (fun x => (x - m) ^ 2)).sum = ∑ i ∈ rows.toFinset.erase j, (D i j - m) ^ 2 := by
  unfold colVals
  rw [List.map_map]
  exact sum_filter_ne rows hr j _

theorem nanmean_col {n : ℕ} (D : Fin n → Fin n → ℝ) (rows : List (Fin n)) (hr : rows.Nodup) (j : Fin n)
    (hne : (rows.toFinset.erase j).Nonempty) :
    nanmean (colVals D rows j) = .fin (Spec.meanOver (rows.toFinset.erase j) (fun i => D i j)) := by
  unfold nanmean
  rw [if_neg, colVals_mean D rows hr]
  intro h
  have h1 := colVals_length D rows hr j
  rw [h] at h1
  exact absurd h1.symm (Finset.card_pos.mpr hne).ne'

theorem nanvar0_col {n : ℕ} (D : Fin n → Fin n → ℝ) (rows : List (Fin n)) (hr : rows.Nodup) (j : Fin n)
    (hne : (rows.toFinset.erase j).Nonempty) :
    nanvar 0 (colVals D rows j) = .fin (Spec.variance (rows.toFinset.erase j) (fun i => D i j)) := by
  unfold nanvar
  rw [if_neg, colVals_mean D rows hr, colVals_sq D rows hr, colVals_length D rows hr]
  · simp [Spec.variance]
  · rw [colVals_length D rows hr]
    exact (Finset.card_pos.mpr hne).not_ge

theorem nanvar1_col {n : ℕ} (D : Fin n → Fin n → ℝ) (rows : List (Fin n)) (hr : rows.Nodup) (j : Fin n)
    (hne : 2 ≤ (rows.toFinset.erase j).card) :
    nanvar 1 (colVals D rows j) = .fin (Spec.sampleVariance (rows.toFinset.erase j) (fun i => D i j)) := by
  unfold nanvar
  rw [if_neg, colVals_mean D rows hr, colVals_sq D rows hr, colVals_length D rows hr]
  · simp [Spec.sampleVariance]
  · rw [colVals_length D rows hr]
    omega

theorem noZero_fin (x : ℝ) : noZero (.fin x) = .fin (Spec.guard x) := by
  unfold noZero Spec.guard
  by_cases h : x = 0
  · simp [h]; norm_num
  · simp [h]

theorem variance_nonneg {ι : Type} (N : Finset ι) (f : ι → ℝ) : 0 ≤ Spec.variance N f :=
  div_nonneg (Finset.sum_nonneg fun _ _ => sq_nonneg _) (Nat.cast_nonneg _)

theorem sampleVariance_nonneg {ι : Type} (N : Finset ι) (f : ι → ℝ) (h : 2 ≤ N.card) : 0 ≤ Spec.sampleVariance N f := by
  refine div_nonneg (Finset.sum_nonneg fun _ _ => sq_nonneg _) ?_
  have : (2 : ℝ) ≤ N.card := by exact_mod_cast h
  linarith

theorem guard_pos {x : ℝ} (h : 0 ≤ x) : 0 < Spec.guard x := by
  unfold Spec.guard
  split_ifs with h0
  · norm_num
  · exact lt_of_le_of_ne h (Ne.symm h0)

theorem sqrt_fin {x : ℝ} (h : 0 ≤ x) : XR.sqrt (.fin x) = .fin (√x) := by simp [XR.sqrt, h.not_gt]

theorem sd_col {n : ℕ} (D : Fin n → Fin n → ℝ) (rows : List (Fin n)) (hr : rows.Nodup) (j : Fin n)
    (hne : (rows.toFinset.erase j).Nonempty) :
    noZero (XR.sqrt (nanvar 0 (colVals D rows j)))
      = .fin (Spec.guard (Spec.stdDev (rows.toFinset.erase j) (fun i => D i j))) := by
  rw [nanvar0_col D rows hr j hne, sqrt_fin (variance_nonneg _ _), noZero_fin]
  rfl

theorem normCdf_fin (F : Dists) (x m s : ℝ) (hs : 0 < s) :
    normCdf F x (.fin m) (.fin s) = .fin (F.phi ((x - m) / s)) := by simp [normCdf, hs]

theorem gaussEntry_fin (F : Dists) (metric : String) (x m s m' s' : ℝ) (hs : 0 < s) (hs' : 0 < s') :
    gaussEntry F metric x (.fin m) (.fin s) (.fin m') (.fin s')
      = .fin (Spec.mutualProximity metric (F.phi ((x - m) / s)) (F.phi ((x - m') / s'))) := by
  unfold gaussEntry Spec.mutualProximity normSf
  rw [normCdf_fin F _ _ _ hs, normCdf_fin F _ _ _ hs']
  split_ifs <;> simp [XR.mul, XR.sub, XR.add, XR.neg, sub_eq_add_neg]

theorem selfValue_fin (metric : String) : selfValue metric = .fin (Spec.ownValue metric) := by
  unfold selfValue Spec.ownValue
  split_ifs <;> rfl

theorem mp_nonneg (metric : String) {p q : ℝ} (hp : 0 ≤ p) (_ : p ≤ 1) (hq : 0 ≤ q) (hq1 : q ≤ 1) :
    0 ≤ Spec.mutualProximity metric p q := by
  unfold Spec.mutualProximity
  split_ifs
  · positivity
  · nlinarith [mul_nonneg hp hq]

theorem mp_le_one (metric : String) {p q : ℝ} (hp : 0 ≤ p) (hp1 : p ≤ 1) (_ : 0 ≤ q) (hq1 : q ≤ 1) :
    Spec.mutualProximity metric p q ≤ 1 := by
  unfold Spec.mutualProximity
  split_ifs
  · nlinarith
  · nlinarith [mul_nonneg (sub_nonneg.mpr hp1) (sub_nonneg.mpr hq1)]

theorem mp_mono (metric : String) {p q p' q' : ℝ} (hp : 0 ≤ p) (hq : 0 ≤ q) (hpp : p ≤ p')
    (hqq : q ≤ q') (hp1 : p' ≤ 1) (hq1 : q' ≤ 1) :
    Spec.mutualProximity metric p q ≤ Spec.mutualProximity metric p' q' := by
  unfold Spec.mutualProximity
  split_ifs
  · exact mul_le_mul hpp hqq hq (hp.trans hpp)
  · have : (1 - p') * (1 - q') ≤ (1 - p) * (1 - q) :=
      mul_le_mul (by linarith) (by linarith) (by linarith) (by linarith)
    linarith

theorem mp_comm (metric : String) (p q : ℝ) : Spec.mutualProximity metric p q = Spec.mutualProximity metric q p := by
  unfold Spec.mutualProximity
  split_ifs <;> ring

theorem ownValue_unit (metric : String) : 0 ≤ Spec.ownValue metric ∧ Spec.ownValue metric ≤ 1 := by
  unfold Spec.ownValue
  split_ifs <;> norm_num

/-- The dense normal variant with finite values. -/
theorem gaussiDense_eq (F : Dists) (metric : String) {n : ℕ} (D : Fin n → Fin n → ℝ) (rows : List (Fin n))
    (hr : rows.Nodup) (hne : ∀ j, (rows.toFinset.erase j).Nonempty) :
    gaussiDense F metric D rows = LS.mirror (.fin (Spec.ownValue metric)) (fun i j => .fin (Spec.mutualProximity metric
      (F.phi ((D i j - Spec.meanOver (rows.toFinset.erase i) (fun c => D c i))
        / Spec.guard (Spec.stdDev (rows.toFinset.erase i) (fun c => D c i))))
      (F.phi ((D i j - Spec.meanOver (rows.toFinset.erase j) (fun c => D c j))
        / Spec.guard (Spec.stdDev (rows.toFinset.erase j) (fun c => D c j)))))) := by
  unfold gaussiDense
  simp only [fillUpper_eq, nanmean_col D rows hr _ (hne _), sd_col D rows hr _ (hne _), selfValue_fin]
  simp only [gaussEntry_fin F metric _ _ _ _ _ (guard_pos (Real.sqrt_nonneg _)) (guard_pos (Real.sqrt_nonneg _)),
    Spec.stdDev]

theorem gamma_nonneg (F : Dists) {a x : ℝ} (ha : 0 < a) (hx : 0 ≤ x) : 0 ≤ F.gamma a x := by
  have := F.gamma_mono a 0 x ha le_rfl hx
  rwa [F.gamma_zero a ha] at this

theorem gamCdf_fin (F : Dists) (x : ℝ) {a b : ℝ} (ha : 0 < a) (hb : 0 < b) :
    gamCdf F x (.fin a) (.fin b) = .fin (F.gamma a (max x 0 / b)) := by
  have hx : (if x < 0 then 0 else x) = max x 0 := by
    split_ifs with h
    · exact (max_eq_right h.le).symm
    · exact (max_eq_left (not_lt.mp h)).symm
  unfold gamCdf
  simp only [hx]
  rw [if_neg (show ¬ XR.flt (.fin a) (.fin 0) from ha.not_gt), if_neg (show ¬ XR.fle (.fin b) (.fin 0) from hb.not_ge),
    ← F.gammainc_fin a _ ha (by positivity)]
  simp [XR.div, hb.ne']

theorem gamEntry_fin (F : Dists) (metric : String) (x x' : ℝ) {a b a' b' : ℝ} (ha : 0 < a) (hb : 0 < b) (ha' : 0 < a')
    (hb' : 0 < b') :
    gamEntry F metric x x' (.fin a) (.fin b) (.fin a') (.fin b')
      = .fin (Spec.mutualProximity metric (F.gamma a (max x 0 / b)) (F.gamma a' (max x' 0 / b'))) := by
  unfold gamEntry Spec.mutualProximity
  rw [gamCdf_fin F _ ha hb, gamCdf_fin F _ ha' hb']
  split_ifs <;> simp [XR.mul, XR.sub, XR.add, XR.neg, sub_eq_add_neg]

/-- The dense Gamma variant with finite values. -/
theorem gammaiDense_eq (F : Dists) (metric : String) {n : ℕ} (D : Fin n → Fin n → ℝ) (rows : List (Fin n))
    (hr : rows.Nodup) (h2 : ∀ j, 2 ≤ (rows.toFinset.erase j).card)
    (hmu : ∀ j, 0 < Spec.meanOver (rows.toFinset.erase j) (fun c => D c j)) :
    gammaiDense F metric D rows = LS.mirror (.fin (Spec.ownValue metric)) (fun i j =>
      let mu := fun i => Spec.meanOver (rows.toFinset.erase i) (fun c => D c i)
      let va := fun i => Spec.guard (Spec.sampleVariance (rows.toFinset.erase i) (fun c => D c i))
      .fin (Spec.mutualProximity metric (F.gamma (mu i ^ 2 / va i) (max (D i j) 0 / (va i / mu i)))
        (F.gamma (mu j ^ 2 / va j) (max (D j i) 0 / (va j / mu j))))) := by
  have hne : ∀ j, (rows.toFinset.erase j).Nonempty := fun j => Finset.card_pos.mp (by have := h2 j; omega)
  unfold gammaiDense
  simp only [fillUpper_eq, nanmean_col D rows hr _ (hne _), nanvar1_col D rows hr _ (h2 _), selfValue_fin, noZero_fin]
  congr 1
  funext i j
  have hv : ∀ i, 0 < Spec.guard (Spec.sampleVariance (rows.toFinset.erase i) (fun c => D c i)) := fun i =>
    guard_pos (sampleVariance_nonneg _ _ (h2 i))
  have e1 : ∀ i, XR.div (XR.mul (XR.fin (Spec.meanOver (rows.toFinset.erase i) (fun c => D c i)))
      (.fin (Spec.meanOver (rows.toFinset.erase i) (fun c => D c i))))
      (.fin (Spec.guard (Spec.sampleVariance (rows.toFinset.erase i) (fun c => D c i))))
      = .fin (Spec.meanOver (rows.toFinset.erase i) (fun c => D c i) ^ 2
        / Spec.guard (Spec.sampleVariance (rows.toFinset.erase i) (fun c => D c i))) := by
    intro i
    simp [XR.mul, XR.div, (hv i).ne', sq]
  have e2 : ∀ i, XR.div (.fin (Spec.guard (Spec.sampleVariance (rows.toFinset.erase i) (fun c => D c i))))
      (XR.fin (Spec.meanOver (rows.toFinset.erase i) (fun c => D c i)))
      = .fin (Spec.guard (Spec.sampleVariance (rows.toFinset.erase i) (fun c => D c i))
        / Spec.meanOver (rows.toFinset.erase i) (fun c => D c i)) := by
    intro i
    simp [XR.div, (hmu i).ne']
  rw [e1, e1, e2, e2, gamEntry_fin F metric _ _ (div_pos (pow_pos (hmu i) 2) (hv i)) (div_pos (hv i) (hmu i))
    (div_pos (pow_pos (hmu j) 2) (hv j)) (div_pos (hv j) (hmu j))]

theorem check_ok {metric : String} (h : Spec.IsMetric metric) : checkValidMetric metric = .ok () := by
  rcases h with h | h <;> subst h <;> rfl

theorem gaussi_dense (F : Dists) {n : ℕ} (D : Fin n → Fin n → ℝ) (metric : String) (hm : Spec.IsMetric metric) (mn : ℤ)
    (test : Option (List ℤ)) :
    gaussi F (.mat false n n D) metric 0 mn test none = .ok ⟨n, n, gaussiDense F metric D (LS.trainInd n test)⟩ := by
  unfold gaussi
  simp [PyMat.checkSquare, check_ok hm, bind, Except.bind, pure, Except.pure]

theorem gammai_dense (F : Dists) {n : ℕ} (D : Fin n → Fin n → ℝ) (metric : String) (hm : Spec.IsMetric metric) (mn : ℤ)
    (test : Option (List ℤ)) :
    gammai F (.mat false n n D) metric mn test = .ok ⟨n, gammaiDense F metric D (LS.trainInd n test)⟩ := by
  unfold gammai
  simp [PyMat.checkSquare, check_ok hm, bind, Except.bind, pure, Except.pure]

end HubToolbox.MPPar
