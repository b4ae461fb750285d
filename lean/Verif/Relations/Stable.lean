import Verif.Relations.Classify
import Verif.Relations.Uniform
import Verif.SNN.Props
import Verif.LS.Examples
import Verif.Rounding.Euclid
import Verif.Rounding.LocalError
import Verif.Rounding.NicdmError

/-!
# Experiments in double precision (C280, C281)

Rounding changes distances. Experiments look at the order of distances only; if distances which are compared are not too close to each other, rounding does
not change what an experiment reports.
-/

set_option autoImplicit false

namespace HubToolbox.Spec

open HubToolbox

/-- Hubness and k-NN classification of two matrices do not differ. -/
structure SameExperiments {n : ℕ} (x y : Fin n → Fin n → XR ℝ) : Prop where
  /-- `hubness` returns the same neighbour lists, occurrences and skewness -/
  hubness : ∀ (o o' : ArgPart (XR ℝ)) (rnd rnd' : Hubness.Rnd) (sched sched' : Hubness.Schedule) (sparse sparse' : Bool) (k nJobs nJobs' : ℤ)
    (seed seed' shuffle shuffle' : Bool) (r r' : Hubness.Res n),
    Hubness.hubnessMat o rnd sched sparse x k "distance" nJobs seed shuffle = .ok r →
    Hubness.hubnessMat o' rnd' sched' sparse' y k "distance" nJobs' seed' shuffle' = .ok r' → r = r'
  /-- `score` classifies the same objects correctly -/
  score : 2 ≤ n → ∀ (srt srt' : Knn.ArgSort (XR ℝ)) (o o' : ArgPart (XR ℝ)) (rnd rnd' : Knn.Rnd) (labels : Fin n → ℤ) (ks : List ℤ),
    (∀ k ∈ ks, 1 ≤ k) →
    ∃ r r', Knn.score srt o rnd (.mat false n n x) (.vec n labels) (.list ks) "distance" none = .ok ⟨n, r⟩ ∧
      Knn.score srt' o' rnd' (.mat false n n y) (.vec n labels) (.list ks) "distance" none = .ok ⟨n, r'⟩ ∧
      ∀ j, j < ks.length → ∃ q q', r.perK[j]? = some q ∧ r'.perK[j]? = some q' ∧ q'.corr = q.corr ∧ q'.acc = q.acc

end HubToolbox.Spec

namespace HubToolbox.Relations

open HubToolbox Ieee Rounding

section
variable {n : ℕ} {x y : Fin n → Fin n → ℝ}
  (h : ∀ i a b, a ≠ i → b ≠ i → a ≠ b → (x i a < x i b ∧ y i a < y i b) ∨ (x i b < x i a ∧ y i b < y i a))
include h

theorem gap_order (i a b : Fin n) (ha : a ≠ i) (hb : b ≠ i) : x i a < x i b ↔ y i a < y i b := by
  rcases eq_or_ne a b with rfl | hab
  · simp
  · rcases h i a b ha hb hab with ⟨h1, h2⟩ | ⟨h1, h2⟩
    · exact iff_of_true h1 h2
    · exact iff_of_false h1.not_gt h2.not_gt

theorem gap_ties (i a b : Fin n) (ha : a ≠ i) (hb : b ≠ i) (e : x i a = x i b) : a = b := by
  by_contra hab
  rcases h i a b ha hb hab with ⟨h1, -⟩ | ⟨h1, -⟩
  · exact h1.ne e
  · exact h1.ne e.symm

theorem gap_same : Spec.SameExperiments (LS.toXR x) (LS.toXR y) where
  hubness o o' rnd rnd' sched sched' sparse sparse' k nJobs nJobs' seed seed' shuffle shuffle' r r' h1 h2 :=
    C168_row_order o o' rnd rnd' sched sched' sparse sparse' x y k "distance" nJobs nJobs' seed seed' shuffle shuffle' (gap_ties h) (gap_order h) r r'
      h1 h2
  score hn srt srt' o o' rnd rnd' labels ks hk := by
    obtain ⟨r, r', h1, h2, h3⟩ := C169_score srt srt' o o' rnd rnd' hn x y labels labels ks hk "distance" (Or.inl rfl) (gap_ties h) 1
      (fun i a b ha hb => (gap_order h i a b ha hb).symm) id Function.injective_id (fun _ => rfl)
    refine ⟨r, r', h1, h2, fun j hj => ?_⟩
    obtain ⟨q, q', e1, e2, e3, e4⟩ := h3 j hj
    exact ⟨q, q', e1, e2, funext e3, e4⟩

end

/-- **C280**: let the distances of each vector to the others differ by at least a factor of `1 + 8 (d + 2) · 2⁻⁵³` for `d` features. Then hubness and k-NN
classification of the distances computed by `euclidean_distance` in double precision are those of the exact Euclidean distances. -/
theorem C280 (L : CosLib ℝ) (hL : L.Near) (h0 : L.sqrt (.fin 0) = .fin 0) {n d : ℕ} (hd : d ≤ 2 ^ 46) (X : Fin n → Fin d → ℝ) (hX : EucModerate X)
    (hgap : ∀ i a b, a ≠ i → b ≠ i → a ≠ b →
      (1 + 8 * (d + 2) * 2 ^ (-53 : ℤ)) * √(∑ f, (X i f - X a f) ^ 2) < √(∑ f, (X i f - X b f) ^ 2) ∨
      (1 + 8 * (d + 2) * 2 ^ (-53 : ℤ)) * √(∑ f, (X i f - X b f) ^ 2) < √(∑ f, (X i f - X a f) ^ 2)) :
    Spec.SameExperiments (fun i j => .fin √(∑ f, (X i f - X j f) ^ 2))
      ((double.rounding ℝ).euclideanDistance L (fun i f => .fin (X i f))) := by
  choose z hz _ using fun i j => C244 L hL h0 hd X hX i j
  have e : (double.rounding ℝ).euclideanDistance L (fun i f => .fin (X i f)) = LS.toXR z := by
    funext i j
    exact hz i j
  have hone : ∀ s : ℝ, 0 ≤ s → s ≤ (1 + 8 * (d + 2) * 2 ^ (-53 : ℤ)) * s := by
    intro s hs
    refine le_mul_of_one_le_left hs ?_
    have : (0 : ℝ) ≤ 8 * (d + 2) * 2 ^ (-53 : ℤ) := by positivity
    linarith
  rw [e]
  refine gap_same (x := fun i j => √(∑ f, (X i f - X j f) ^ 2)) fun i a b ha hb hab => ?_
  have key : ∀ a b, (1 + 8 * (d + 2) * 2 ^ (-53 : ℤ)) * √(∑ f, (X i f - X a f) ^ 2) < √(∑ f, (X i f - X b f) ^ 2) →
      √(∑ f, (X i f - X a f) ^ 2) < √(∑ f, (X i f - X b f) ^ 2) ∧ z i a < z i b := by
    intro a b hg
    refine ⟨(hone _ (Real.sqrt_nonneg _)).trans_lt hg, ?_⟩
    have := C244_order L hL h0 hd X hX i a i b hg
    rw [hz, hz] at this
    exact this
  exact (hgap i a b ha hb hab).imp (key a b) (key b a)

/-- **C280** (shared neighbours): the exact shared nearest neighbours of these distances do not change either. -/
theorem C280_snn (L : CosLib ℝ) (hL : L.Near) (h0 : L.sqrt (.fin 0) = .fin 0) {n d : ℕ} (hd : d ≤ 2 ^ 46) (X : Fin n → Fin d → ℝ) (hX : EucModerate X)
    (hgap : ∀ i a b, a ≠ i → b ≠ i → a ≠ b →
      (1 + 8 * (d + 2) * 2 ^ (-53 : ℤ)) * √(∑ f, (X i f - X a f) ^ 2) < √(∑ f, (X i f - X b f) ^ 2) ∨
      (1 + 8 * (d + 2) * 2 ^ (-53 : ℤ)) * √(∑ f, (X i f - X b f) ^ 2) < √(∑ f, (X i f - X a f) ^ 2))
    (w w' : SNN.World ℝ) (k : ℕ) (h1 : 1 ≤ k) (hk : k < n) (nJobs nJobs' : ℤ) :
    SNN.sharedNearestNeighbors w (.mat false n n (fun i j => .fin √(∑ f, (X i f - X j f) ^ 2))) k "distance" nJobs =
      SNN.sharedNearestNeighbors w' (.mat false n n ((double.rounding ℝ).euclideanDistance L (fun i f => .fin (X i f)))) k "distance" nJobs' := by
  choose z hz _ using fun i j => C244 L hL h0 hd X hX i j
  have e : (double.rounding ℝ).euclideanDistance L (fun i f => .fin (X i f)) = fun i j => .fin (z i j) := by
    funext i j
    exact hz i j
  have hone : ∀ s : ℝ, 0 ≤ s → s ≤ (1 + 8 * (d + 2) * 2 ^ (-53 : ℤ)) * s := by
    intro s hs
    refine le_mul_of_one_le_left hs ?_
    have : (0 : ℝ) ≤ 8 * (d + 2) * 2 ^ (-53 : ℤ) := by positivity
    linarith
  have hg : ∀ i a b, a ≠ i → b ≠ i → a ≠ b →
      (√(∑ f, (X i f - X a f) ^ 2) < √(∑ f, (X i f - X b f) ^ 2) ∧ z i a < z i b) ∨
      (√(∑ f, (X i f - X b f) ^ 2) < √(∑ f, (X i f - X a f) ^ 2) ∧ z i b < z i a) := by
    intro i a b ha hb hab
    have key : ∀ a b, (1 + 8 * (d + 2) * 2 ^ (-53 : ℤ)) * √(∑ f, (X i f - X a f) ^ 2) < √(∑ f, (X i f - X b f) ^ 2) →
        √(∑ f, (X i f - X a f) ^ 2) < √(∑ f, (X i f - X b f) ^ 2) ∧ z i a < z i b := by
      intro a b hg
      refine ⟨(hone _ (Real.sqrt_nonneg _)).trans_lt hg, ?_⟩
      have := C244_order L hL h0 hd X hX i a i b hg
      rw [hz, hz] at this
      exact this
    exact (hgap i a b ha hb hab).imp (key a b) (key b a)
  rw [e]
  exact SNN.C72_order_invariant w w' (fun i j => √(∑ f, (X i f - X j f) ^ 2)) z (gap_order hg) (gap_ties hg) k h1 hk "distance" (Or.inl rfl) nJobs nJobs'

/-- **C281** (Local Scaling): if the secondary distances of each object differ by more than `2⁻⁴⁹`, experiments on the secondary distances computed in
double precision give the results of the exact secondary distances. -/
theorem C281_local_scaling (L : Lib) (hexp : L.ExpNear) (w w' : LS.World) {n : ℕ} (hn : 0 < n) (x : Fin n → Fin n → ℝ)
    (hsym : ∀ i j, x i j = x j i) (hx : ∀ i j, i ≠ j → Within (-200) 200 (x i j)) (k : ℕ) (hk : 1 ≤ k)
    (test : Option (List ℤ)) (nJobs nJobs' : ℤ) (hj : nJobs = -1 ∨ 1 ≤ nJobs) (hj' : nJobs' = -1 ∨ 1 ≤ nJobs') (r : Fin n → ℝ)
    (hr : ∀ i, Spec.IsKthSmallest ((Spec.training n test).erase i) (x i) k (r i)) (hpos : ∀ i, 0 < r i)
    (hgap : ∀ i a b, a ≠ i → b ≠ i → a ≠ b →
      2 ^ (-49 : ℤ) < |Spec.localScaling (x i a) (r i) (r a) - Spec.localScaling (x i b) (r i) (r b)|) :
    ∃ M M' : Fin n → Fin n → XR ℝ, LS.localScaling w (.mat false n n (LS.toXR x)) k "distance" test nJobs = .ok ⟨n, M⟩ ∧
      (double.rounding ℝ).localScaling L w' (.mat false n n (LS.toXR x)) k "distance" test nJobs' = .ok ⟨n, M'⟩ ∧ Spec.SameExperiments M M' := by
  obtain ⟨M, hM, -, he⟩ := C210 L hexp w' hn x hsym hx k hk test nJobs' hj' r hr hpos
  refine ⟨_, _, LS.C28_formula w x hsym k hk test nJobs hj r hr hpos hn, hM, ?_⟩
  refine gap_same (x := fun i j => if i = j then 0 else Spec.localScaling (x i j) (r i) (r j)) fun i a b ha hb hab => ?_
  have e1 := abs_le.1 (he i a ha.symm)
  have e2 := abs_le.1 (he i b hb.symm)
  have hg := hgap i a b ha hb hab
  have h49 : (2 : ℝ) ^ (-49 : ℤ) = 2 * 2 ^ (-50 : ℤ) := by norm_num
  have hp : (0 : ℝ) < 2 ^ (-50 : ℤ) := by positivity
  simp only [ha.symm, hb.symm, if_false]
  rw [h49] at hg
  rcases lt_abs.1 hg with h1 | h1
  · exact Or.inr ⟨by linarith, by linarith [e1.1, e2.2]⟩
  · exact Or.inl ⟨by linarith, by linarith [e1.2, e2.1]⟩

/-- **C281** (NICDM): if the secondary distances of each object differ by more than a factor of `1 + n · 2⁻⁴⁰`, experiments on the secondary distances
computed in double precision give the results of the exact secondary distances. -/
theorem C281_nicdm (L : Lib) (hL : L.Accurate) (w w' : LS.World) {n : ℕ} (hn0 : 0 < n) (hn : n ≤ 2 ^ 40) (x : Fin n → Fin n → ℝ)
    (hsym : ∀ i j, x i j = x j i) (hf : ∀ i j, i ≠ j → double.round (x i j) = .fin (x i j))
    (hx : ∀ i j, i ≠ j → 2 ^ (-200 : ℤ) ≤ x i j ∧ x i j ≤ 2 ^ (200 : ℤ)) (k : ℕ) (h1 : 1 ≤ k) (test : Option (List ℤ))
    (nJobs nJobs' : ℤ) (N : Fin n → Finset (Fin n)) (hN : ∀ i, Spec.IsNearest ((Spec.training n test).erase i) (x i) k (N i))
    (S : Fin n → Fin n → ℝ)
    (hS : S = fun i j => Spec.nicdm (Spec.geometricMean (fun i => Spec.meanOver (N i) (x i))) (x i j)
      (Spec.meanOver (N i) (x i)) (Spec.meanOver (N j) (x j)))
    (hgap : ∀ i a b, a ≠ i → b ≠ i → a ≠ b → (1 + n * 2 ^ (-40 : ℤ)) * S i a < S i b ∨ (1 + n * 2 ^ (-40 : ℤ)) * S i b < S i a) :
    ∃ M M' : Fin n → Fin n → XR ℝ, LS.nicdm w (.mat false n n (LS.toXR x)) k "distance" test nJobs = .ok ⟨n, M⟩ ∧
      (double.rounding ℝ).nicdm L w' (.mat false n n (LS.toXR x)) k "distance" test nJobs' = .ok ⟨n, M'⟩ ∧ Spec.SameExperiments M M' := by
  obtain ⟨M, hM, he⟩ := C214_order L hL w' hn0 hn x hsym hf hx k h1 test nJobs' N hN S hS
  have hpos : ∀ i, 0 < Spec.meanOver (N i) (x i) := by
    intro i
    have hcard : 0 < (N i).card := by rw [(hN i).card]; exact h1
    unfold Spec.meanOver
    refine div_pos (Finset.sum_pos (fun j hj => ?_) (Finset.card_pos.1 hcard)) (by exact_mod_cast hcard)
    exact lt_of_lt_of_le (by positivity) (hx i j (Finset.ne_of_mem_erase ((hN i).sub hj)).symm).1
  have hS0 : ∀ i j, i ≠ j → 0 ≤ S i j := by
    intro i j hij
    rw [hS]
    have := (lt_of_lt_of_le (by positivity) (hx i j hij).1 : (0 : ℝ) < x i j)
    have a1 := hpos i
    have a2 := hpos j
    have a3 : 0 ≤ Spec.geometricMean (fun i => Spec.meanOver (N i) (x i)) := Real.rpow_nonneg (Finset.prod_nonneg fun i _ => (hpos i).le) _
    unfold Spec.nicdm
    positivity
  refine ⟨_, _, LS.C32_formula w x hsym k h1 test nJobs N hN hpos hn0, hM, ?_⟩
  refine gap_same (x := fun i j => if i = j then 0 else Spec.nicdm (Spec.geometricMean (fun i => Spec.meanOver (N i) (x i))) (x i j)
      (Spec.meanOver (N i) (x i)) (Spec.meanOver (N j) (x j))) fun i a b ha hb hab => ?_
  have hSe : ∀ j, Spec.nicdm (Spec.geometricMean (fun i => Spec.meanOver (N i) (x i))) (x i j)
      (Spec.meanOver (N i) (x i)) (Spec.meanOver (N j) (x j)) = S i j := fun j => (congrFun (congrFun hS i) j).symm
  simp only [ha.symm, hb.symm, if_false, hSe]
  have hone : ∀ s : ℝ, 0 ≤ s → s ≤ (1 + n * 2 ^ (-40 : ℤ)) * s := by
    intro s hs
    refine le_mul_of_one_le_left hs ?_
    have : (0 : ℝ) ≤ n * 2 ^ (-40 : ℤ) := by positivity
    linarith
  exact (hgap i a b ha hb hab).imp (fun hg => ⟨(hone _ (hS0 i a ha.symm)).trans_lt hg, he i a i b ha.symm hb.symm hg⟩)
    (fun hg => ⟨(hone _ (hS0 i b hb.symm)).trans_lt hg, he i b i a hb.symm ha.symm hg⟩)

/-! ### Instances -/

theorem plane3_apart (i a b : Fin 3) (ha : a ≠ i) (hb : b ≠ i) (hab : a ≠ b) :
    (1 + 8 * ((2 : ℕ) + 2) * 2 ^ (-53 : ℤ)) * √(∑ f, (plane3 i f - plane3 a f) ^ 2) < √(∑ f, (plane3 i f - plane3 b f) ^ 2) ∨
    (1 + 8 * ((2 : ℕ) + 2) * 2 ^ (-53 : ℤ)) * √(∑ f, (plane3 i f - plane3 b f) ^ 2) < √(∑ f, (plane3 i f - plane3 a f) ^ 2) := by
  have key : ∀ s t : ℝ, 0 ≤ s → 25 / 16 * s < t → (1 + 8 * ((2 : ℕ) + 2) * 2 ^ (-53 : ℤ)) * √s < √t := by
    intro s t hs hst
    have h3 : (1 + 8 * ((2 : ℕ) + 2) * 2 ^ (-53 : ℤ) : ℝ) ≤ 5 / 4 := by norm_num
    refine (mul_le_mul_of_nonneg_right h3 (Real.sqrt_nonneg s)).trans_lt ?_
    rw [Real.lt_sqrt (by positivity), mul_pow, Real.sq_sqrt hs]
    linarith
  have e01 : ∑ f, (plane3 0 f - plane3 1 f) ^ 2 = 20 := by
    rw [Fin.sum_univ_two]
    show ((3 : ℝ) - 1) ^ 2 + (4 - 0) ^ 2 = 20
    norm_num
  have e02 : ∑ f, (plane3 0 f - plane3 2 f) ^ 2 = 34 := by
    rw [Fin.sum_univ_two]
    show ((3 : ℝ) - -2) ^ 2 + (4 - 1) ^ 2 = 34
    norm_num
  have e12 : ∑ f, (plane3 1 f - plane3 2 f) ^ 2 = 10 := by
    rw [Fin.sum_univ_two]
    show ((1 : ℝ) - -2) ^ 2 + (0 - 1) ^ 2 = 10
    norm_num
  have hs : ∀ i j : Fin 3, ∑ f, (plane3 i f - plane3 j f) ^ 2 = ∑ f, (plane3 j f - plane3 i f) ^ 2 :=
    fun i j => Finset.sum_congr rfl fun f _ => by ring
  have e10 := (hs 1 0).trans e01
  have e20 := (hs 2 0).trans e02
  have e21 := (hs 2 1).trans e12
  fin_cases i <;> fin_cases a <;> first
    | exact absurd rfl ha
    | (fin_cases b <;> first
        | exact absurd rfl hb
        | exact absurd rfl hab
        | (simp only [Fin.zero_eta, Fin.mk_one, Fin.reduceFinMk, e01, e02, e12, e10, e20, e21]
           first
           | (refine Or.inl (key _ _ ?_ ?_) <;> (norm_num; done))
           | (refine Or.inr (key _ _ ?_ ?_) <;> (norm_num; done))))

example := C280 CosLib.rounded CosLib.rounded_near CosLib.rounded_sqrt_zero (by norm_num) plane3 plane3_eucModerate plane3_apart

example (w w' : SNN.World ℝ) := C280_snn CosLib.rounded CosLib.rounded_near CosLib.rounded_sqrt_zero (by norm_num) plane3 plane3_eucModerate plane3_apart
  w w' 2 (by norm_num) (by norm_num) 1 4

theorem line3_apart (i a b : Fin 3) (ha : a ≠ i) (hb : b ≠ i) (hab : a ≠ b) :
    2 ^ (-49 : ℤ) < |Spec.localScaling (LS.line3 i a) ((![1, 1, 2] : Fin 3 → ℝ) i) ((![1, 1, 2] : Fin 3 → ℝ) a) -
      Spec.localScaling (LS.line3 i b) ((![1, 1, 2] : Fin 3 → ℝ) i) ((![1, 1, 2] : Fin 3 → ℝ) b)| := by
  have key : ∀ p q : ℝ, p + 1 / 2 ≤ q → q ≤ 5 → (2 : ℝ) ^ (-49 : ℤ) < (1 - Real.exp (-q)) - (1 - Real.exp (-p)) := by
    intro p q h1 h2
    have h3 : Real.exp (-p) = Real.exp (-q) * Real.exp (q - p) := by rw [← Real.exp_add]; congr 1; ring
    have h4 : (q - p) + 1 ≤ Real.exp (q - p) := Real.add_one_le_exp _
    have h5 : Real.exp (-5) ≤ Real.exp (-q) := Real.exp_le_exp.2 (by linarith)
    have h6 : (1 : ℝ) / 243 ≤ Real.exp (-5) := by
      rw [Real.exp_neg, show (5 : ℝ) = ((5 : ℕ) : ℝ) * 1 by norm_num, Real.exp_nat_mul, ← one_div]
      refine one_div_le_one_div_of_le (by positivity) ?_
      have h7 : Real.exp 1 ≤ 3 := Real.exp_one_lt_d9.le.trans (by norm_num)
      calc Real.exp 1 ^ 5 ≤ 3 ^ 5 := pow_le_pow_left₀ (Real.exp_pos 1).le h7 5
        _ = 243 := by norm_num
    have h8 : (1 / 243 : ℝ) * (1 / 2) ≤ Real.exp (-q) * (Real.exp (q - p) - 1) :=
      mul_le_mul (h6.trans h5) (by linarith) (by norm_num) (Real.exp_pos _).le
    have h9 : (2 : ℝ) ^ (-49 : ℤ) < 1 / 243 * (1 / 2) := by norm_num
    have h10 : 1 - Real.exp (-q) - (1 - Real.exp (-p)) = Real.exp (-q) * (Real.exp (q - p) - 1) := by rw [h3]; ring
    rw [h10]
    exact h9.trans_le h8
  unfold Spec.localScaling
  fin_cases i <;> fin_cases a <;> first
    | exact absurd rfl ha
    | (fin_cases b <;> first
        | exact absurd rfl hb
        | exact absurd rfl hab
        | (refine lt_abs.2 (Or.inl (key _ _ ?_ ?_)) <;> (norm_num [LS.line3]; done))
        | (rw [abs_sub_comm]; refine lt_abs.2 (Or.inl (key _ _ ?_ ?_)) <;> (norm_num [LS.line3]; done)))

example (nJobs : ℤ) (hj : nJobs = -1 ∨ 1 ≤ nJobs) := C281_local_scaling Lib.rounded Lib.rounded_expNear LS.stdWorld LS.stdWorld (by norm_num) LS.line3
  LS.line3_symm (fun i j _ => line3_within' i j) 1 le_rfl none nJobs nJobs hj hj _ LS.line3_radii LS.line3_pos line3_apart

theorem line3_factor (i a b : Fin 3) (ha : a ≠ i) (hb : b ≠ i) (hab : a ≠ b) (g : ℝ) (hg : 0 < g) :
    let S : Fin 3 → Fin 3 → ℝ := fun i j => Spec.nicdm g (LS.line3 i j) (Spec.meanOver ((![{1}, {0}, {1}] : Fin 3 → Finset (Fin 3)) i) (LS.line3 i))
      (Spec.meanOver ((![{1}, {0}, {1}] : Fin 3 → Finset (Fin 3)) j) (LS.line3 j))
    (1 + (3 : ℕ) * 2 ^ (-40 : ℤ)) * S i a < S i b ∨ (1 + (3 : ℕ) * 2 ^ (-40 : ℤ)) * S i b < S i a := by
  intro S
  have h3 : (1 + (3 : ℕ) * 2 ^ (-40 : ℤ) : ℝ) ≤ 5 / 4 := by norm_num
  have q1 : 7 / 5 < √(2 : ℝ) := by rw [Real.lt_sqrt (by norm_num)]; norm_num
  have q2 : √(2 : ℝ) < 3 / 2 := by rw [Real.sqrt_lt' (by norm_num)]; norm_num
  have q3 : √(2 : ℝ) * √2 = 2 := Real.mul_self_sqrt (by norm_num)
  have hS : ∀ i j, S i j = g * (LS.line3 i j / √((![1, 1, 2] : Fin 3 → ℝ) i * (![1, 1, 2] : Fin 3 → ℝ) j)) := by
    intro i j
    show Spec.nicdm _ _ _ _ = _
    unfold Spec.nicdm
    rw [mul_div_assoc]
    congr 2
    fin_cases i <;> fin_cases j <;> norm_num [Spec.meanOver, LS.line3]
  have key : ∀ s t : ℝ, 0 ≤ s → 5 / 4 * s < t → (1 + (3 : ℕ) * 2 ^ (-40 : ℤ)) * (g * s) < g * t := by
    intro s t hs hst
    rw [mul_left_comm]
    exact mul_lt_mul_of_pos_left ((mul_le_mul_of_nonneg_right h3 hs).trans_lt hst) hg
  have r1 : (2 : ℝ) / √2 = √2 := by rw [div_eq_iff (by positivity), q3]
  have r2 : (3 : ℝ) / √2 = 3 / 2 * √2 := by rw [div_eq_iff (by positivity)]; linarith
  rw [hS, hS]
  fin_cases i <;> fin_cases a <;> first
    | exact absurd rfl ha
    | (fin_cases b <;> first
        | exact absurd rfl hb
        | exact absurd rfl hab
        | (refine Or.inl (key _ _ ?_ ?_) <;> norm_num [LS.line3, r1, r2] <;> (first | positivity | linarith); done)
        | (refine Or.inr (key _ _ ?_ ?_) <;> norm_num [LS.line3, r1, r2] <;> (first | positivity | linarith); done))

example (nJobs : ℤ) := C281_nicdm Lib.rounded Lib.rounded_accurate LS.stdWorld LS.stdWorld (n := 3) (by norm_num) (by norm_num)
  LS.line3 LS.line3_symm (fun i j _ => by simpa using line3_float i j 1 (by norm_num))
  (fun i j hij => by simpa using line3_between i j hij le_rfl one_le_two) 1 le_rfl none nJobs nJobs _ LS.line3_nearest _ rfl
  (fun i a b ha hb hab => line3_factor i a b ha hb hab _ (Real.rpow_pos_of_pos (Finset.prod_pos fun i _ => LS.line3_mean i) _))

end HubToolbox.Relations
