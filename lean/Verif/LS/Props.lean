import Verif.LS.Nicdm
import Verif.NpSort

/-!
# Properties of Local Scaling and NICDM (C28-C32, C68-C71)
-/

set_option autoImplicit false

namespace HubToolbox.LS
open HubToolbox

/-- A world with two CPUs in which the workers run one after the other. -/
noncomputable def stdWorld : World where
  cpu := 2
  cpu_pos := by omega
  part := ArgPart.ofInsertion (XR ℝ)
  sched l := l
  sched_perm l := List.Perm.refl l

/-- A world with four CPUs in which the writes of the workers happen in reverse order. -/
noncomputable def revWorld : World where
  cpu := 4
  cpu_pos := by omega
  part := ArgPart.ofSort (XR ℝ)
  sched l := l.reverse
  sched_perm l := List.reverse_perm l

theorem localScaling_dense (w : World) {n : ℕ} (D : Fin n → Fin n → XR ℝ) (k : ℤ) (metric : String)
    (hm : metric = "distance" ∨ metric = "similarity") (test : Option (List ℤ)) (nJobs : ℤ) :
    localScaling w (.mat false n n D) k metric test nJobs =
      (core w D k metric test nJobs).map (fun M => (⟨n, M⟩ : Σ n : ℕ, Fin n → Fin n → XR ℝ)) := by
  have hv : checkValidMetric metric = .ok () := by
    rcases hm with rfl | rfl <;> rfl
  unfold localScaling
  simp only [PyMat.checkSquare, dif_pos rfl]
  change ((checkValidMetric metric).bind fun _ => _) = _
  rw [hv]
  change ((core w D k metric test nJobs).bind fun M => _) = _
  cases core w D k metric test nJobs <;> rfl

theorem nicdm_dense (w : World) {n : ℕ} (D : Fin n → Fin n → XR ℝ) (k : ℕ) (test : Option (List ℤ)) (nJobs : ℤ) :
    nicdm w (.mat false n n D) k "distance" test nJobs =
      (nicdmCore w D k test nJobs).map (fun M => (⟨n, M⟩ : Σ n : ℕ, Fin n → Fin n → XR ℝ)) := by
  unfold nicdm
  simp only [PyMat.checkSquare, dif_pos rfl]
  change ((nicdmCore w D k test nJobs).bind fun M => _) = _
  cases nicdmCore w D k test nJobs <;> rfl

theorem training_card_le (n : ℕ) (test : Option (List ℤ)) (i : Fin n) :
    ((Spec.training n test).erase i).card ≤ (trainInd n test).length := by
  rw [trainInd_length]; exact Finset.card_erase_le

/-! ### C28: a valid secondary distance -/

/-- **C28** (value). For finite symmetric distances and positive radii, `local_scaling` returns exactly the local
scaling formula, where `r i` is the `k`-th smallest distance of point `i` to the *other* (training) points. This
holds for every number of processes, every schedule and every implementation of the partial sort. -/
theorem C28_formula (w : World) {n : ℕ} (x : Fin n → Fin n → ℝ) (hsym : ∀ i j, x i j = x j i) (k : ℕ) (hk : 1 ≤ k)
    (test : Option (List ℤ)) (nJobs : ℤ) (hj : nJobs = -1 ∨ 1 ≤ nJobs) (r : Fin n → ℝ)
    (hr : ∀ i, Spec.IsKthSmallest ((Spec.training n test).erase i) (x i) k (r i)) (hpos : ∀ i, 0 < r i)
    (hn : 0 < n) :
    localScaling w (.mat false n n (toXR x)) k "distance" test nJobs =
      .ok ⟨n, fun i j => .fin (if i = j then 0 else Spec.localScaling (x i j) (r i) (r j))⟩ := by
  have hcard : ∀ i, k ≤ ((Spec.training n test).erase i).card := fun i =>
    (hr i).upto.trans (Finset.card_le_card (Finset.filter_subset _ _))
  have hlen : k ≤ (trainInd n test).length := (hcard ⟨0, hn⟩).trans (training_card_le n test _)
  rw [localScaling_dense w _ _ _ (Or.inl rfl), core_ok w _ _ _ _ _ (jobs_pos w nJobs hj) ⟨k - 1, by omega⟩]
  · change Except.ok _ = Except.ok _
    congr 2
    funext i j
    have hrad : ∀ i, rankVal (cols (Np.fillDiagonal (toXR x) (exclude "distance")) (trainInd n test) i)
        ⟨k - 1, by omega⟩ = .fin (r i) := by
      intro i
      obtain ⟨ρ, h1, h2⟩ := rankVal_kthSmallest x test i k hk (hcard i) ⟨k - 1, by omega⟩ rfl
      rw [kthSmallest_unique (hr i) h2]
      exact h1
    unfold result mirror
    simp only [hrad, toXR, entry_distance _ _ _ (hpos _) (hpos _)]
    by_cases h : i = j
    · simp [h, selfValue]
    · rw [if_neg h, if_neg h]
      by_cases h' : i < j
      · rw [if_pos h']
      · rw [if_neg h', hsym j i]
        unfold Spec.localScaling
        rw [mul_comm (r j)]
  · unfold kthOf
    rw [if_neg (by decide)]
    exact wrap_pred hk hlen

/-- **C28** (radii). As long as every point has at least `k` other training points, the radii exist, so the
hypothesis of `C28_formula` can be met; `k < n` is enough without held-out points. -/
theorem C28_radii_exist {n : ℕ} (x : Fin n → Fin n → ℝ) (k : ℕ) (hk : 1 ≤ k) (test : Option (List ℤ))
    (hc : ∀ i, k ≤ ((Spec.training n test).erase i).card) :
    ∃ r : Fin n → ℝ, ∀ i, Spec.IsKthSmallest ((Spec.training n test).erase i) (x i) k (r i) := by
  have h : ∀ i, ∃ ρ, Spec.IsKthSmallest ((Spec.training n test).erase i) (x i) k ρ := by
    intro i
    have := (hc i).trans (training_card_le n test i)
    obtain ⟨ρ, _, h2⟩ := rankVal_kthSmallest x test i k hk (hc i) ⟨k - 1, by omega⟩ rfl
    exact ⟨ρ, h2⟩
  choose r hr using h
  exact ⟨r, hr⟩

theorem C28_radii_exist_all {n : ℕ} (x : Fin n → Fin n → ℝ) (k : ℕ) (hk : 1 ≤ k) (hkn : k < n) :
    ∃ r : Fin n → ℝ, ∀ i, Spec.IsKthSmallest ((Spec.training n none).erase i) (x i) k (r i) := by
  apply C28_radii_exist x k hk
  intro i
  have : Spec.training n none = Finset.univ := by simp [Spec.training]
  rw [this, Finset.card_erase_of_mem (Finset.mem_univ i)]
  simp
  omega

/-- **C28** (validity). For finite symmetric distances with positive radii, whatever `local_scaling` returns is a
symmetric matrix of finite values in `[0, 1)` with zero diagonal; off the diagonal a value is zero exactly for a
zero primary distance. -/
theorem C28_valid (w : World) {n : ℕ} (x : Fin n → Fin n → ℝ) (hsym : ∀ i j, x i j = x j i) (k : ℕ) (hk : 1 ≤ k)
    (test : Option (List ℤ)) (nJobs : ℤ) (hj : nJobs = -1 ∨ 1 ≤ nJobs) (r : Fin n → ℝ)
    (hr : ∀ i, Spec.IsKthSmallest ((Spec.training n test).erase i) (x i) k (r i)) (hpos : ∀ i, 0 < r i)
    (hn : 0 < n) :
    ∃ M : Fin n → Fin n → ℝ,
      localScaling w (.mat false n n (toXR x)) k "distance" test nJobs = .ok ⟨n, toXR M⟩ ∧
      (∀ i j, M i j = M j i) ∧ (∀ i, M i i = 0) ∧ (∀ i j, 0 ≤ M i j ∧ M i j < 1) ∧
      (∀ i j, i ≠ j → (M i j = 0 ↔ x i j = 0)) := by
  refine ⟨fun i j => if i = j then 0 else Spec.localScaling (x i j) (r i) (r j),
    C28_formula w x hsym k hk test nJobs hj r hr hpos hn, ?_, ?_, ?_, ?_⟩
  · intro i j
    by_cases h : i = j
    · simp [h]
    · simp only [h, Ne.symm h, if_false]
      unfold Spec.localScaling
      rw [hsym i j, mul_comm (r i)]
  · intro i; simp
  · intro i j
    by_cases h : i = j
    · simp [h]
    · simp only [h, if_false]
      have h1 : 0 ≤ x i j ^ 2 / (r i * r j) := by
        have := mul_pos (hpos i) (hpos j)
        positivity
      have h2 : Real.exp (-(x i j ^ 2 / (r i * r j))) ≤ 1 := Real.exp_le_one_iff.2 (by linarith)
      have h3 := Real.exp_pos (-(x i j ^ 2 / (r i * r j)))
      unfold Spec.localScaling
      constructor <;> linarith
  · intro i j h
    simp only [h, if_false]
    unfold Spec.localScaling
    have hp := mul_pos (hpos i) (hpos j)
    rw [sub_eq_zero, eq_comm, Real.exp_eq_one_iff, neg_eq_zero, div_eq_zero_iff]
    constructor
    · rintro (h | h)
      · exact pow_eq_zero_iff (by norm_num) |>.1 h
      · exact absurd h hp.ne'
    · intro h; left; rw [h]; norm_num

/-- Three points on a line. -/
def line3 : Fin 3 → Fin 3 → ℝ := ![![0, 1, 3], ![1, 0, 2], ![3, 2, 0]]

theorem line3_symm : ∀ i j, line3 i j = line3 j i := by
  intro i j; fin_cases i <;> fin_cases j <;> rfl

theorem line3_radii : ∀ i, Spec.IsKthSmallest ((Spec.training 3 none).erase i) (line3 i) 1 (![1, 1, 2] i) := by
  have ht : Spec.training 3 none = Finset.univ := by simp [Spec.training]
  rw [ht]
  intro i
  fin_cases i
  · refine ⟨⟨1, by decide, by norm_num [line3]⟩, ?_, ?_⟩
    · rw [Nat.lt_one_iff, Finset.card_eq_zero, Finset.filter_eq_empty_iff]
      intro j hj; fin_cases j <;> first | (revert hj; decide) | norm_num [line3]
    · refine Finset.card_pos.2 ⟨1, ?_⟩
      rw [Finset.mem_filter]; exact ⟨by decide, by norm_num [line3]⟩
  · refine ⟨⟨0, by decide, by norm_num [line3]⟩, ?_, ?_⟩
    · rw [Nat.lt_one_iff, Finset.card_eq_zero, Finset.filter_eq_empty_iff]
      intro j hj; fin_cases j <;> first | (revert hj; decide) | norm_num [line3]
    · refine Finset.card_pos.2 ⟨0, ?_⟩
      rw [Finset.mem_filter]; exact ⟨by decide, by norm_num [line3]⟩
  · refine ⟨⟨1, by decide, by norm_num [line3]⟩, ?_, ?_⟩
    · rw [Nat.lt_one_iff, Finset.card_eq_zero, Finset.filter_eq_empty_iff]
      intro j hj; fin_cases j <;> first | (revert hj; decide) | norm_num [line3]
    · refine Finset.card_pos.2 ⟨1, ?_⟩
      rw [Finset.mem_filter]; exact ⟨by decide, by norm_num [line3]⟩

/-- The hypotheses can be met: three points, `k = 1`, all CPUs. -/
example : localScaling revWorld (.mat false 3 3 (toXR line3)) (1 : ℕ) "distance" none (-1) =
    .ok ⟨3, fun i j => .fin (if i = j then 0 else
      Spec.localScaling (line3 i j) (![1, 1, 2] i) (![1, 1, 2] j))⟩ :=
  C28_formula revWorld line3 line3_symm 1 le_rfl none (-1) (Or.inl rfl) _ line3_radii
    (by intro i; fin_cases i <;> norm_num) (by norm_num)

/-! ### C29: scale invariance and monotonicity -/

theorem mul_eq_scale {c : ℝ} (hc : 0 < c) (a : XR ℝ) : XR.mul (.fin c) a = XR.scale c a := by
  have : ¬ (0 < -c) := by linarith
  cases a <;> simp [XR.mul, XR.scale, XR.map, XR.infMul, hc, hc.ne', this]

theorem core_scale {c : ℝ} (hc : 0 < c) (w : World) {n : ℕ} (D : Fin n → Fin n → XR ℝ) (k : ℤ) (metric : String)
    (test : Option (List ℤ)) (nJobs : ℤ) :
    core w (fun i j => XR.scale c (D i j)) k metric test nJobs = core w D k metric test nJobs := by
  rcases Nat.eq_zero_or_pos n with rfl | hn
  · congr 1; funext i; exact i.elim0
  · cases h : Np.wrap (trainInd n test).length (kthOf metric n k) with
    | none => rw [core_error w hn _ _ _ _ _ h, core_error w hn _ _ _ _ _ h]
    | some t =>
      by_cases hj : 1 ≤ jobs w nJobs
      · rw [core_ok w _ _ _ _ _ hj t h, core_ok w _ _ _ _ _ hj t h, result_scale hc]
      · rw [core_unbound w _ _ _ _ _ (by omega) t h, core_unbound w _ _ _ _ _ (by omega) t h]

/-- **C29** (scale). `local_scaling(c*D) = local_scaling(D)` for every `c > 0`, every argument (also infinite or
`nan` entries, similarities, held-out points, failing calls) and every environment. -/
theorem C29_scale_invariant {c : ℝ} (hc : 0 < c) (w : World) (sp : Bool) (n m : ℕ) (D : Fin n → Fin m → XR ℝ)
    (k : ℤ) (metric : String) (test : Option (List ℤ)) (nJobs : ℤ) :
    localScaling w (.mat sp n m (fun i j => XR.mul (.fin c) (D i j))) k metric test nJobs =
      localScaling w (.mat sp n m D) k metric test nJobs := by
  simp only [mul_eq_scale hc]
  by_cases h : n = m
  · subst h
    cases sp
    · by_cases hm : metric = "distance" ∨ metric = "similarity"
      · rw [localScaling_dense w _ _ _ hm, localScaling_dense w _ _ _ hm, core_scale hc]
      · have hv : checkValidMetric metric = .error .valueError := by
          unfold checkValidMetric
          rw [if_pos]
          push Not at hm
          exact hm
        unfold localScaling
        simp only [PyMat.checkSquare, dif_pos rfl]
        change ((checkValidMetric metric).bind fun _ => _) = ((checkValidMetric metric).bind fun _ => _)
        rw [hv]
        rfl
    · unfold localScaling
      simp only [PyMat.checkSquare, dif_pos rfl]
      change ((checkValidMetric metric).bind fun _ => _) = ((checkValidMetric metric).bind fun _ => _)
      cases checkValidMetric metric with
      | error e => rfl
      | ok _ =>
        by_cases hm : metric = "similarity"
        · subst hm; rfl
        · simp only [Except.bind, if_true, hm, if_false]; rfl
  · simp only [localScaling, PyMat.checkSquare, dif_neg h]

theorem localScaling_strictMono {d d' ri rj : ℝ} (hd : 0 ≤ d) (h : d < d') (hi : 0 < ri) (hj : 0 < rj) :
    Spec.localScaling d ri rj < Spec.localScaling d' ri rj := by
  unfold Spec.localScaling
  have hp := mul_pos hi hj
  have hsq : d ^ 2 < d' ^ 2 := by nlinarith
  have := Real.exp_lt_exp.2 (neg_lt_neg (div_lt_div_of_pos_right hsq hp))
  linarith

/-- **C29** (monotone). Two calls with symmetric non-negative distances and the same neighbourhood radii: a larger
primary distance between two different points gives a strictly larger secondary distance. -/
theorem C29_monotone (w w' : World) {n : ℕ} (x x' : Fin n → Fin n → ℝ) (hsym : ∀ i j, x i j = x j i)
    (hsym' : ∀ i j, x' i j = x' j i) (k k' : ℕ) (hk : 1 ≤ k) (hk' : 1 ≤ k')
    (test test' : Option (List ℤ)) (nJobs nJobs' : ℤ) (hj : nJobs = -1 ∨ 1 ≤ nJobs)
    (hj' : nJobs' = -1 ∨ 1 ≤ nJobs') (r r' : Fin n → ℝ)
    (hr : ∀ i, Spec.IsKthSmallest ((Spec.training n test).erase i) (x i) k (r i)) (hpos : ∀ i, 0 < r i)
    (hr' : ∀ i, Spec.IsKthSmallest ((Spec.training n test').erase i) (x' i) k' (r' i)) (hpos' : ∀ i, 0 < r' i)
    (a b a' b' : Fin n) (hab : a ≠ b) (hab' : a' ≠ b') (hra : r a = r' a') (hrb : r b = r' b')
    (hx0 : 0 ≤ x a b) (hlt : x a b < x' a' b') :
    ∃ M M' : Fin n → Fin n → ℝ,
      localScaling w (.mat false n n (toXR x)) k "distance" test nJobs = .ok ⟨n, toXR M⟩ ∧
      localScaling w' (.mat false n n (toXR x')) k' "distance" test' nJobs' = .ok ⟨n, toXR M'⟩ ∧
      M a b < M' a' b' := by
  refine ⟨_, _, C28_formula w x hsym k hk test nJobs hj r hr hpos a.pos,
    C28_formula w' x' hsym' k' hk' test' nJobs' hj' r' hr' hpos' a.pos, ?_⟩
  simp only [hab, hab', if_false]
  rw [← hra, ← hrb]
  exact localScaling_strictMono hx0 hlt (hpos a) (hpos b)

/-- Non-vacuity: in one call, points 0 and 1 have the same radius, point 2 is nearer to 1 than to 0. -/
example : ∃ M : Fin 3 → Fin 3 → ℝ,
    localScaling stdWorld (.mat false 3 3 (toXR line3)) (1 : ℕ) "distance" none 1 = .ok ⟨3, toXR M⟩ ∧
      M 1 2 < M 0 2 := by
  obtain ⟨M, M', h, h', hlt⟩ := C29_monotone stdWorld stdWorld line3 line3 line3_symm line3_symm 1 1 le_rfl le_rfl
    none none 1 1 (Or.inr le_rfl) (Or.inr le_rfl) _ _ line3_radii (by intro i; fin_cases i <;> norm_num)
    line3_radii (by intro i; fin_cases i <;> norm_num) 1 2 0 2 (by decide) (by decide) rfl rfl
    (by change (0 : ℝ) ≤ 2; norm_num) (by change (2 : ℝ) < 3; norm_num)
  refine ⟨M, h, ?_⟩
  rw [h] at h'
  have h2 := Except.ok.inj h'
  have h3 : toXR M = toXR M' := by simpa using h2
  have : M 0 2 = M' 0 2 := XR.fin.inj (congrFun (congrFun h3 0) 2)
  rw [this]; exact hlt

/-! ### C30 and C70: similarities -/

/-- **C30/C70** (value). Without held-out points the similarity variant returns `exp(-s²/(r_i r_j))` where `r` is the
`k`-th largest similarity to another point, and one on the diagonal. -/
theorem C70_formula_partial (w : World) {n : ℕ} (x : Fin n → Fin n → ℝ) (hsym : ∀ i j, x i j = x j i) (k : ℕ)
    (hk : 1 ≤ k) (hkn : k < n) (nJobs : ℤ) (hj : nJobs = -1 ∨ 1 ≤ nJobs) (r : Fin n → ℝ)
    (hr : ∀ i, Spec.IsKthLargest (Finset.univ.erase i) (x i) k (r i)) (hnz : ∀ i, r i ≠ 0) :
    localScaling w (.mat false n n (toXR x)) k "similarity" none nJobs =
      .ok ⟨n, fun i j => .fin (if i = j then 1 else Real.exp (-(x i j ^ 2 / (r i * r j))))⟩ := by
  have hlen : (trainInd n none).length = n := by simp [trainInd]
  rw [localScaling_dense w _ _ _ (Or.inr rfl),
    core_ok w _ _ _ _ _ (jobs_pos w nJobs hj) ⟨n - k, by omega⟩]
  · change Except.ok _ = Except.ok _
    congr 2
    funext i j
    have hrad : ∀ i, rankVal (cols (Np.fillDiagonal (toXR x) (exclude "similarity")) (trainInd n none) i)
        ⟨n - k, by omega⟩ = .fin (r i) := by
      intro i
      obtain ⟨ρ, h1, h2⟩ := rankVal_kthLargest x i k hk hkn ⟨n - k, by omega⟩ rfl
      have := kthSmallest_unique (hr i) h2
      rw [neg_inj] at this
      rw [this]
      exact h1
    unfold result mirror
    simp only [hrad, toXR, entry_similarity _ _ _ (mul_ne_zero (hnz _) (hnz _))]
    by_cases h : i = j
    · simp [h, selfValue]
    · rw [if_neg h, if_neg h]
      by_cases h' : i < j
      · rw [if_pos h']
      · rw [if_neg h', hsym j i, mul_comm (r j)]
  · unfold kthOf
    rw [if_pos rfl]
    have : Np.wrap (trainInd n none).length ((n : ℤ) - k) = some ⟨n - k, by omega⟩ := by
      rw [Np.wrap_of_nonneg (by omega) (by omega)]
      congr 1
      apply Fin.ext
      simp
    exact this

/-- **C30** (what the code does instead). For positive radii the similarity variant *reverses* the order: among
pairs with the same radii the larger non-negative similarity gets the smaller value. -/
theorem C30_reversed_partial (w : World) {n : ℕ} (x : Fin n → Fin n → ℝ) (hsym : ∀ i j, x i j = x j i) (k : ℕ)
    (hk : 1 ≤ k) (hkn : k < n) (nJobs : ℤ) (hj : nJobs = -1 ∨ 1 ≤ nJobs) (r : Fin n → ℝ)
    (hr : ∀ i, Spec.IsKthLargest (Finset.univ.erase i) (x i) k (r i)) (hpos : ∀ i, 0 < r i)
    (a b a' b' : Fin n) (hab : a ≠ b) (hab' : a' ≠ b') (hra : r a = r a') (hrb : r b = r b')
    (hx0 : 0 ≤ x a b) (hlt : x a b < x a' b') :
    ∃ M : Fin n → Fin n → ℝ,
      localScaling w (.mat false n n (toXR x)) k "similarity" none nJobs = .ok ⟨n, toXR M⟩ ∧
      M a' b' < M a b := by
  refine ⟨_, C70_formula_partial w x hsym k hk hkn nJobs hj r hr (fun i => (hpos i).ne'), ?_⟩
  simp only [hab, hab', if_false]
  rw [← hra, ← hrb]
  have := localScaling_strictMono hx0 hlt (hpos a) (hpos b)
  unfold Spec.localScaling at this
  linarith

/-- Four points with similarities; 1 and 2 have the same radius for `k = 1`. -/
def sim4 : Fin 4 → Fin 4 → ℝ := ![![9, 1, 2, 0], ![1, 9, 0, 3], ![2, 0, 9, 3], ![0, 3, 3, 9]]

theorem kthLargest_one {n : ℕ} {x : Fin n → ℝ} {i j : Fin n} {ρ : ℝ} (hj : j ≠ i) (hx : x j = ρ)
    (h : ∀ l, l ≠ i → x l ≤ ρ) : Spec.IsKthLargest (Finset.univ.erase i) x 1 ρ := by
  refine ⟨⟨j, by simp [hj], by rw [hx]⟩, ?_, ?_⟩
  · rw [Nat.lt_one_iff, Finset.card_eq_zero, Finset.filter_eq_empty_iff]
    intro l hl
    have := h l (Finset.ne_of_mem_erase hl)
    linarith
  · refine Finset.card_pos.2 ⟨j, ?_⟩
    rw [Finset.mem_filter]
    exact ⟨by simp [hj], by rw [hx]⟩

theorem sim4_symm : ∀ i j, sim4 i j = sim4 j i := by
  intro i j; fin_cases i <;> fin_cases j <;> rfl

theorem sim4_radii : ∀ i, Spec.IsKthLargest (Finset.univ.erase i) (sim4 i) 1 (![2, 3, 3, 3] i) := by
  intro i
  fin_cases i
  · refine kthLargest_one (j := 2) (by decide) rfl ?_
    intro l hl; fin_cases l <;> first | (exfalso; revert hl; decide) | norm_num [sim4]
  · refine kthLargest_one (j := 3) (by decide) rfl ?_
    intro l hl; fin_cases l <;> first | (exfalso; revert hl; decide) | norm_num [sim4]
  · refine kthLargest_one (j := 3) (by decide) rfl ?_
    intro l hl; fin_cases l <;> first | (exfalso; revert hl; decide) | norm_num [sim4]
  · refine kthLargest_one (j := 1) (by decide) (by norm_num [sim4]) ?_
    intro l hl; fin_cases l <;> first | (exfalso; revert hl; decide) | norm_num [sim4]

/-- **C30** is violated: there is a similarity matrix for which point 0 is more similar to 2 than to 1, the points 1
and 2 have the same radius, and yet the secondary similarity of 0 and 2 is smaller than that of 0 and 1. -/
theorem C30_violated : ¬ ∀ (w : World) (n : ℕ) (x : Fin n → Fin n → ℝ) (k : ℕ) (r : Fin n → ℝ)
    (M : Fin n → Fin n → ℝ), (∀ i j, x i j = x j i) → (∀ i j, 0 ≤ x i j) → 1 ≤ k → k < n →
    (∀ i, Spec.IsKthLargest (Finset.univ.erase i) (x i) k (r i)) → (∀ i, 0 < r i) →
    localScaling w (.mat false n n (toXR x)) k "similarity" none 1 = .ok ⟨n, toXR M⟩ →
    ∀ a b c : Fin n, a ≠ b → a ≠ c → r b = r c → x a b < x a c → M a b ≤ M a c := by
  intro h
  have hpos : ∀ i : Fin 4, (0 : ℝ) < ![2, 3, 3, 3] i := by intro i; fin_cases i <;> norm_num
  have hlt : sim4 0 1 < sim4 0 2 := by change (1 : ℝ) < 2; norm_num
  obtain ⟨M, hM, hrev⟩ := C30_reversed_partial stdWorld sim4 sim4_symm 1 le_rfl (by norm_num) 1 (Or.inr le_rfl) _
    sim4_radii hpos 0 1 0 2 (by decide) (by decide) rfl rfl (by norm_num [sim4]) hlt
  have hnn : ∀ i j, 0 ≤ sim4 i j := by
    intro i j; fin_cases i <;> fin_cases j <;> norm_num [sim4]
  have := h stdWorld 4 sim4 1 _ M sim4_symm hnn le_rfl (by norm_num) sim4_radii hpos hM 0 1 2 (by decide)
    (by decide) rfl hlt
  linarith

/-- **C70** is violated: with held-out points the position `n - k` still counts all points, so as soon as `k` does not
exceed the number of held-out points the call raises `ValueError` although there are enough training points. -/
theorem C70_violated (w : World) {n : ℕ} (D : Fin n → Fin n → XR ℝ) (k : ℕ) (t : List ℤ) (nJobs : ℤ) (hn : 0 < n)
    (hk : k + (Spec.training n (some t)).card ≤ n) :
    localScaling w (.mat false n n D) k "similarity" (some t) nJobs = .error .valueError := by
  rw [localScaling_dense w _ _ _ (Or.inr rfl), core_error w hn]
  · rfl
  · unfold kthOf
    rw [if_pos rfl, trainInd_length]
    unfold Np.wrap
    rw [dif_neg (by omega), dif_neg (by omega)]

/-- Witness: ten points, one held out, `k = 1`. -/
example : localScaling stdWorld (.mat false 10 10 (fun _ _ => .fin 1)) (1 : ℕ) "similarity" (some [9]) 1
    = .error .valueError :=
  C70_violated stdWorld _ 1 [9] 1 (by norm_num) (by decide)

/-! ### C31: parallel and serial computation agree -/

/-- **C31** (Local Scaling). For every matrix of a positive number of points, all arguments, any two valid `n_jobs` and
any two environments (CPUs, schedules, partial sort implementations) the results (or exceptions) are the same. -/
theorem C31_local_scaling (w w' : World) (sp : Bool) (n m : ℕ) (hn : 0 < n) (D : Fin n → Fin m → XR ℝ) (k : ℤ)
    (metric : String) (test : Option (List ℤ)) (nJobs nJobs' : ℤ) (hj : nJobs = -1 ∨ 1 ≤ nJobs)
    (hj' : nJobs' = -1 ∨ 1 ≤ nJobs') :
    localScaling w (.mat sp n m D) k metric test nJobs = localScaling w' (.mat sp n m D) k metric test nJobs' := by
  have hcore : ∀ D : Fin n → Fin n → XR ℝ,
      core w D k metric test nJobs = core w' D k metric test nJobs' := by
    intro D
    cases h : Np.wrap (trainInd n test).length (kthOf metric n k) with
    | none => rw [core_error w hn _ _ _ _ _ h, core_error w' hn _ _ _ _ _ h]
    | some t => rw [core_ok w _ _ _ _ _ (jobs_pos w _ hj) t h, core_ok w' _ _ _ _ _ (jobs_pos w' _ hj') t h]
  by_cases h : n = m
  · subst h
    unfold localScaling
    simp only [PyMat.checkSquare, dif_pos rfl]
    change ((checkValidMetric metric).bind fun _ => _) = ((checkValidMetric metric).bind fun _ => _)
    simp only [hcore]
  · simp only [localScaling, PyMat.checkSquare, dif_neg h]
    rfl

/-- **C31** (NICDM). Here every `n_jobs` is accepted. -/
theorem C31_nicdm (w w' : World) (sp : Bool) (n m : ℕ) (hn : 0 < n) (D : Fin n → Fin m → XR ℝ) (k : ℕ)
    (metric : String) (test : Option (List ℤ)) (nJobs nJobs' : ℤ) :
    nicdm w (.mat sp n m D) k metric test nJobs = nicdm w' (.mat sp n m D) k metric test nJobs' := by
  have hcore : ∀ D : Fin n → Fin n → XR ℝ,
      nicdmCore w D k test nJobs = nicdmCore w' D k test nJobs' := by
    intro D
    by_cases h : k ≤ (trainInd n test).length
    · rw [nicdmCore_ok w _ _ _ _ h, nicdmCore_ok w' _ _ _ _ h]
    · rw [nicdmCore_error w hn _ _ _ _ (by omega), nicdmCore_error w' hn _ _ _ _ (by omega)]
  by_cases h : n = m
  · subst h
    unfold nicdm
    simp only [PyMat.checkSquare, dif_pos rfl]
    change ((checkValidMetric metric).bind fun _ => _) = ((checkValidMetric metric).bind fun _ => _)
    simp only [hcore]
  · simp only [nicdm, PyMat.checkSquare, dif_neg h]
    rfl

/-- The two worlds of the examples really take different branches. -/
example : jobs stdWorld 1 = 1 ∧ jobs revWorld (-1) = 4 ∧
    localScaling stdWorld (.mat false 3 3 (toXR line3)) 2 "distance" none 1 =
      localScaling revWorld (.mat false 3 3 (toXR line3)) 2 "distance" none (-1) :=
  ⟨rfl, rfl, C31_local_scaling _ _ _ _ _ (by norm_num) _ _ _ _ _ _ (Or.inr le_rfl) (Or.inl rfl)⟩

/-! ### C71: values of `n_jobs` -/

/-- **C71** is violated: for `n_jobs = 0` (or below `-1`) `local_scaling` neither computes a result nor reports the
argument, but fails with an `UnboundLocalError` after having computed the radii; `nicdm` accepts the value. -/
theorem C71_violated (w : World) {n : ℕ} (x : Fin n → Fin n → ℝ) (k : ℕ) (hk : 1 ≤ k) (hkn : k ≤ n) (nJobs : ℤ)
    (hj : nJobs < 1) (hj' : nJobs ≠ -1) :
    localScaling w (.mat false n n (toXR x)) k "distance" none nJobs = .error .unboundLocalError ∧
    ∃ M, nicdm w (.mat false n n (toXR x)) k "distance" none nJobs = .ok ⟨n, M⟩ := by
  have hlen : (trainInd n none).length = n := by simp [trainInd]
  constructor
  · rw [localScaling_dense w _ _ _ (Or.inl rfl), core_unbound w _ _ _ _ _ _ ⟨k - 1, by omega⟩]
    · rfl
    · unfold kthOf
      rw [if_neg (by decide)]
      exact wrap_pred hk (by omega)
    · unfold jobs
      rw [if_neg hj']
      exact hj
  · refine ⟨nicdmResult (toXR x) (trainInd n none) k (by omega), ?_⟩
    · rw [nicdm_dense, nicdmCore_ok w _ _ _ _ (by omega)]
      rfl

/-- **C71**, the part which holds: `-1` and positive values are accepted. -/
theorem C71_valid_partial (w : World) {n : ℕ} (x : Fin n → Fin n → ℝ) (k : ℕ) (hk : 1 ≤ k) (hkn : k ≤ n) (nJobs : ℤ)
    (hj : nJobs = -1 ∨ 1 ≤ nJobs) (metric : String) (hm : metric = "distance" ∨ metric = "similarity") :
    ∃ M, localScaling w (.mat false n n (toXR x)) k metric none nJobs = .ok ⟨n, M⟩ := by
  have hlen : (trainInd n none).length = n := by simp [trainInd]
  rcases hm with rfl | rfl
  · refine ⟨result (toXR x) "distance" (trainInd n none) ⟨k - 1, by omega⟩, ?_⟩
    rw [localScaling_dense w _ _ _ (Or.inl rfl), core_ok w _ _ _ _ _ (jobs_pos w _ hj) ⟨k - 1, by omega⟩]
    · rfl
    · unfold kthOf
      rw [if_neg (by decide)]
      exact wrap_pred hk (by omega)
  · refine ⟨result (toXR x) "similarity" (trainInd n none) ⟨n - k, by omega⟩, ?_⟩
    rw [localScaling_dense w _ _ _ (Or.inr rfl), core_ok w _ _ _ _ _ (jobs_pos w _ hj) ⟨n - k, by omega⟩]
    · rfl
    · unfold kthOf
      rw [if_pos rfl, Np.wrap_of_nonneg (by omega) (by omega)]
      congr 1
      apply Fin.ext
      simp

/-! ### C32: NICDM -/

/-- **C32** (value). `nicdm` returns `g·d/√(r_i r_j)` where `r i` is the mean distance of point `i` to `k` nearest
other training points (any choice of nearest points) and `g` the geometric mean of the `r i`. -/
theorem C32_formula (w : World) {n : ℕ} (x : Fin n → Fin n → ℝ) (hsym : ∀ i j, x i j = x j i) (k : ℕ) (hk : 1 ≤ k)
    (test : Option (List ℤ)) (nJobs : ℤ) (N : Fin n → Finset (Fin n))
    (hN : ∀ i, Spec.IsNearest ((Spec.training n test).erase i) (x i) k (N i))
    (hpos : ∀ i, 0 < Spec.meanOver (N i) (x i)) (hn : 0 < n) :
    nicdm w (.mat false n n (toXR x)) k "distance" test nJobs =
      .ok ⟨n, fun i j => .fin (if i = j then 0 else
        Spec.nicdm (Spec.geometricMean (fun i => Spec.meanOver (N i) (x i))) (x i j)
          (Spec.meanOver (N i) (x i)) (Spec.meanOver (N j) (x j)))⟩ := by
  have hcard : ∀ i, k ≤ ((Spec.training n test).erase i).card := fun i => by
    rw [← (hN i).card]; exact Finset.card_le_card (hN i).sub
  have hlen : k ≤ (trainInd n test).length := (hcard ⟨0, hn⟩).trans (training_card_le n test _)
  rw [nicdm_dense, nicdmCore_ok w _ _ _ _ hlen]
  change Except.ok _ = Except.ok _
  congr 2
  have hrad : radii (toXR x) (trainInd n test) k hlen = fun i => .fin (Spec.meanOver (N i) (x i)) := by
    funext i
    exact meanRank_nearest x test i k hk (hcard i) hlen (N i) (hN i)
  funext i j
  unfold nicdmResult mirror
  rw [hrad, geomean_fin hn _ hpos]
  simp only [toXR, nicdmEntry_fin _ _ _ _ (hpos _) (hpos _)]
  by_cases h : i = j
  · simp [h]
  · rw [if_neg h, if_neg h]
    by_cases h' : i < j
    · rw [if_pos h']
    · rw [if_neg h', hsym j i]
      unfold Spec.nicdm
      rw [mul_comm (Spec.meanOver (N j) (x j))]

/-- **C32** (nearest points exist). -/
theorem C32_nearest_exist {n : ℕ} (x : Fin n → ℝ) (S : Finset (Fin n)) (k : ℕ) (hk : k ≤ S.card) :
    ∃ N, Spec.IsNearest S x k N := by
  induction k with
  | zero => exact ⟨∅, by simp, by simp, by simp⟩
  | succ k ih =>
    obtain ⟨N, hN⟩ := ih (by omega)
    have hne : (S \ N).Nonempty := by
      rw [← Finset.card_pos]
      have := Finset.card_sdiff_add_card_eq_card hN.sub
      have := hN.card
      omega
    obtain ⟨a, ha, hmin⟩ := Finset.exists_min_image (S \ N) x hne
    rw [Finset.mem_sdiff] at ha
    refine ⟨insert a N, ?_, ?_, ?_⟩
    · intro b hb
      rcases Finset.mem_insert.1 hb with rfl | hb
      · exact ha.1
      · exact hN.sub hb
    · rw [Finset.card_insert_of_notMem ha.2, hN.card]
    · intro b hb c hc hcn
      rw [Finset.mem_insert, not_or] at hcn
      rcases Finset.mem_insert.1 hb with rfl | hb
      · exact hmin c (Finset.mem_sdiff.2 ⟨hc, hcn.2⟩)
      · exact hN.best b hb c hc hcn.2

/-- **C32** (validity). The result is symmetric, non-negative and zero on the diagonal; off the diagonal it vanishes
exactly where the primary distance does. -/
theorem C32_valid (w : World) {n : ℕ} (x : Fin n → Fin n → ℝ) (hsym : ∀ i j, x i j = x j i)
    (hnn : ∀ i j, 0 ≤ x i j) (k : ℕ) (hk : 1 ≤ k)
    (test : Option (List ℤ)) (nJobs : ℤ) (N : Fin n → Finset (Fin n))
    (hN : ∀ i, Spec.IsNearest ((Spec.training n test).erase i) (x i) k (N i))
    (hpos : ∀ i, 0 < Spec.meanOver (N i) (x i)) (hn : 0 < n) :
    ∃ M : Fin n → Fin n → ℝ,
      nicdm w (.mat false n n (toXR x)) k "distance" test nJobs = .ok ⟨n, toXR M⟩ ∧
      (∀ i j, M i j = M j i) ∧ (∀ i, M i i = 0) ∧ (∀ i j, 0 ≤ M i j) ∧
      (∀ i j, i ≠ j → (M i j = 0 ↔ x i j = 0)) := by
  refine ⟨_, C32_formula w x hsym k hk test nJobs N hN hpos hn, ?_, ?_, ?_, ?_⟩
  · intro i j
    by_cases h : i = j
    · simp [h]
    · simp only [h, Ne.symm h, if_false]
      unfold Spec.nicdm
      rw [hsym i j, mul_comm (Spec.meanOver (N i) (x i))]
  · intro i; simp
  · intro i j
    have hg := geometricMean_pos _ hpos
    have := hnn i j
    by_cases h : i = j
    · simp [h]
    · simp only [h, if_false]
      unfold Spec.nicdm
      positivity
  · intro i j h
    have hg := geometricMean_pos _ hpos
    have hs := Real.sqrt_pos.2 (mul_pos (hpos i) (hpos j))
    simp only [h, if_false]
    unfold Spec.nicdm
    rw [div_eq_zero_iff, mul_eq_zero]
    constructor
    · rintro ((h | h) | h)
      · exact absurd h hg.ne'
      · exact h
      · exact absurd h hs.ne'
    · intro h; exact Or.inl (Or.inr h)

theorem meanRank_scale {c : ℝ} (hc : 0 < c) {m : ℕ} (d : Fin m → XR ℝ) (k : ℕ) (h : k ≤ m) :
    meanRank (fun x => XR.scale c (d x)) k h = XR.scale c (meanRank d k h) := by
  unfold meanRank
  simp only [rankVal_scale hc, mean_scale hc]

theorem nicdmResult_scale {c : ℝ} (hc : 0 < c) {n : ℕ} (hn : 0 < n) (D : Fin n → Fin n → XR ℝ) (train : List (Fin n))
    (k : ℕ) (h : k ≤ train.length) :
    nicdmResult (fun i j => XR.scale c (D i j)) train k h = fun i j => XR.scale c (nicdmResult D train k h i j) := by
  have hr : radii (fun i j => XR.scale c (D i j)) train k h = fun i => XR.scale c (radii D train k h i) := by
    funext i
    unfold radii
    rw [fillDiagonal_scale c D .pinf rfl]
    exact meanRank_scale hc _ _ _
  funext i j
  unfold nicdmResult mirror
  rw [hr, geomean_scale hc hn]
  simp only [nicdmEntry_scale hc]
  split_ifs
  · simp [XR.scale, XR.map]
  · rfl
  · rfl

/-- **C32** (scale). `nicdm(c*D) = c*nicdm(D)` for every `c > 0` and every square matrix (also with infinite or `nan`
entries), every `k`, test set and environment; exceptions are the same. -/
theorem C32_scale {c : ℝ} (hc : 0 < c) (w : World) {n : ℕ} (hn : 0 < n) (D : Fin n → Fin n → XR ℝ) (k : ℕ)
    (test : Option (List ℤ)) (nJobs : ℤ) :
    nicdm w (.mat false n n (fun i j => XR.mul (.fin c) (D i j))) k "distance" test nJobs =
      (nicdm w (.mat false n n D) k "distance" test nJobs).map
        (fun R => (⟨R.1, fun i j => XR.mul (.fin c) (R.2 i j)⟩ : Σ n : ℕ, Fin n → Fin n → XR ℝ)) := by
  simp only [mul_eq_scale hc]
  rw [nicdm_dense, nicdm_dense]
  by_cases h : k ≤ (trainInd n test).length
  · rw [nicdmCore_ok w _ _ _ _ h, nicdmCore_ok w _ _ _ _ h, nicdmResult_scale hc hn]
    rfl
  · rw [nicdmCore_error w hn _ _ _ _ (by omega), nicdmCore_error w hn _ _ _ _ (by omega)]
    rfl

/-- **C32** (uniform data). If all points have the same mean neighbour distance, `nicdm` returns the primary distances
(with zero diagonal). -/
theorem C32_uniform (w : World) {n : ℕ} (x : Fin n → Fin n → ℝ) (hsym : ∀ i j, x i j = x j i)
    (hdiag : ∀ i, x i i = 0) (k : ℕ) (hk : 1 ≤ k)
    (test : Option (List ℤ)) (nJobs : ℤ) (N : Fin n → Finset (Fin n))
    (hN : ∀ i, Spec.IsNearest ((Spec.training n test).erase i) (x i) k (N i)) (ρ : ℝ) (hρ : 0 < ρ)
    (heq : ∀ i, Spec.meanOver (N i) (x i) = ρ) (hn : 0 < n) :
    nicdm w (.mat false n n (toXR x)) k "distance" test nJobs = .ok ⟨n, toXR x⟩ := by
  rw [C32_formula w x hsym k hk test nJobs N hN (fun i => by rw [heq]; exact hρ) hn]
  congr 2
  funext i j
  have hg : Spec.geometricMean (fun i => Spec.meanOver (N i) (x i)) = ρ := by
    unfold Spec.geometricMean
    simp only [heq, Finset.prod_const, Finset.card_univ, Fintype.card_fin]
    rw [← Real.rpow_natCast, ← Real.rpow_mul hρ.le, mul_one_div_cancel (by positivity), Real.rpow_one]
  unfold toXR
  congr 1
  by_cases h : i = j
  · simp [h, hdiag]
  · rw [if_neg h, hg, heq, heq]
    unfold Spec.nicdm
    rw [Real.sqrt_mul_self hρ.le]
    field_simp

/-- Three points in a regular triangle. -/
def tri3 : Fin 3 → Fin 3 → ℝ := fun i j => if i = j then 0 else 5

/-- Non-vacuity of the theorems about NICDM. -/
example : nicdm stdWorld (.mat false 3 3 (toXR tri3)) 2 "distance" none 3 = .ok ⟨3, toXR tri3⟩ := by
  have ht : Spec.training 3 none = Finset.univ := by simp [Spec.training]
  refine C32_uniform stdWorld tri3 ?_ ?_ 2 (by norm_num) none 3 (fun i => Finset.univ.erase i) ?_ 5 (by norm_num)
    ?_ (by norm_num)
  · intro i j; simp [tri3, eq_comm]
  · intro i; simp [tri3]
  · intro i
    rw [ht]
    refine ⟨fun a h => h, by simp, ?_⟩
    intro a _ b hb hb'
    exact absurd hb hb'
  · intro i
    have : ∀ j ∈ Finset.univ.erase i, tri3 i j = 5 := by
      intro j hj
      have := Finset.ne_of_mem_erase hj
      simp [tri3, Ne.symm this]
    unfold Spec.meanOver
    rw [Finset.sum_congr rfl this, Finset.sum_const]
    simp

/-! ### C68: duplicates -/

/-- **C68** is violated: three identical points. All radii are zero and `0/0` turns every secondary distance into
`nan`. -/
theorem C68_violated (w : World) (nJobs : ℤ) (hj : nJobs = -1 ∨ 1 ≤ nJobs) :
    localScaling w (.mat false 3 3 (toXR (fun _ _ => 0))) (1 : ℕ) "distance" none nJobs =
      .ok ⟨3, fun i j => if i = j then .fin 0 else .nan⟩ := by
  have hlen : (trainInd 3 none).length = 3 := by simp [trainInd]
  rw [localScaling_dense w _ _ _ (Or.inl rfl), core_ok w _ _ _ _ _ (jobs_pos w nJobs hj) ⟨0, by omega⟩]
  · change Except.ok _ = Except.ok _
    congr 2
    funext i j
    have hrad : ∀ i : Fin 3, rankVal (cols (Np.fillDiagonal (toXR (fun _ _ => 0)) (exclude "distance"))
        (trainInd 3 none) i) ⟨0, by omega⟩ = .fin 0 := by
      intro i
      have hcard : 1 ≤ ((Spec.training 3 none).erase i).card := by
        rw [show Spec.training 3 none = Finset.univ by simp [Spec.training]]
        simp
      obtain ⟨ρ, h1, h2⟩ := rankVal_kthSmallest (fun _ _ => 0) none i 1 le_rfl hcard ⟨0, by omega⟩ rfl
      obtain ⟨_, _, h⟩ := h2.attained
      rw [← h] at h1; exact h1
    unfold result mirror
    simp only [hrad, toXR, entry_distance_zero 0 0 0 (by norm_num), if_true]
    by_cases h : i = j
    · simp [h, selfValue]
    · simp [h]
  · rfl

/-- **C68**, the part which holds: with positive radii no entry is `nan`. -/
theorem C68_no_nan_partial (w : World) {n : ℕ} (x : Fin n → Fin n → ℝ) (hsym : ∀ i j, x i j = x j i) (k : ℕ)
    (hk : 1 ≤ k) (test : Option (List ℤ)) (nJobs : ℤ) (hj : nJobs = -1 ∨ 1 ≤ nJobs) (r : Fin n → ℝ)
    (hr : ∀ i, Spec.IsKthSmallest ((Spec.training n test).erase i) (x i) k (r i)) (hpos : ∀ i, 0 < r i)
    (hn : 0 < n) :
    ∃ M, localScaling w (.mat false n n (toXR x)) k "distance" test nJobs = .ok ⟨n, M⟩ ∧
      ∀ i j, (M i j).isFinite = true :=
  ⟨_, C28_formula w x hsym k hk test nJobs hj r hr hpos hn, fun _ _ => rfl⟩

/-! ### C69: neighbourhood sizes -/

theorem entry_pinf (d : ℝ) : entry "distance" (.fin d) .pinf .pinf = .fin 0 := by
  unfold entry
  simp [XR.mul, XR.div, XR.exp, XR.sub, XR.neg, XR.add]

/-- **C69** is violated: `k = 0` and `k = n` are accepted. The excluded self distance `inf` then serves as radius and
*every* secondary distance is zero, whatever the data. -/
theorem C69_violated (w : World) {n : ℕ} (hn : 0 < n) (x : Fin n → Fin n → ℝ) (k : ℤ) (hk : k = 0 ∨ k = n) (nJobs : ℤ)
    (hj : nJobs = -1 ∨ 1 ≤ nJobs) :
    localScaling w (.mat false n n (toXR x)) k "distance" none nJobs = .ok ⟨n, fun _ _ => .fin 0⟩ := by
  have hlen : (trainInd n none).length = n := by simp [trainInd]
  rw [localScaling_dense w _ _ _ (Or.inl rfl), core_ok w _ _ _ _ _ (jobs_pos w nJobs hj) ⟨n - 1, by omega⟩]
  · change Except.ok _ = Except.ok _
    congr 2
    funext i j
    have hrad : ∀ i : Fin n, rankVal (cols (Np.fillDiagonal (toXR x) (exclude "distance"))
        (trainInd n none) i) ⟨n - 1, by omega⟩ = .pinf := by
      intro i
      refine (rankVal_spec _ _).unique ⟨?_, ?_, ?_⟩
      · refine ⟨⟨i.val, by omega⟩, ?_⟩
        simp [cols, trainInd, Np.fillDiagonal, exclude]
      · have hsub : Finset.univ.filter (fun c => cols (Np.fillDiagonal (toXR x) (exclude "distance"))
            (trainInd n none) i c < .pinf) ⊆ Finset.univ.erase ⟨i.val, by omega⟩ := by
          intro c hc
          rw [Finset.mem_erase]
          refine ⟨?_, Finset.mem_univ _⟩
          rintro rfl
          rw [Finset.mem_filter] at hc
          have h2 := hc.2
          simp [cols, trainInd, Np.fillDiagonal, exclude] at h2
        have := Finset.card_le_card hsub
        rw [Finset.card_erase_of_mem (Finset.mem_univ _)] at this
        simpa [hlen] using this
      · have : Finset.univ.filter (fun c => cols (Np.fillDiagonal (toXR x) (exclude "distance"))
            (trainInd n none) i c ≤ .pinf) = Finset.univ := by
          rw [Finset.filter_eq_self]
          intro c _
          unfold cols Np.fillDiagonal toXR exclude
          split <;> simp
        rw [this]
        simp [hlen]
        omega
    unfold result mirror
    simp only [hrad, toXR, entry_pinf]
    split_ifs <;> simp [selfValue]
  · unfold kthOf
    rw [if_neg (by decide)]
    rcases hk with rfl | rfl
    · unfold Np.wrap
      rw [dif_neg (by omega), dif_pos (by omega)]
      congr 1
      apply Fin.ext
      simp
      omega
    · exact wrap_pred hn (by omega)

/-- **C69**, the part which holds: `k` above the number of training points raises `ValueError`. -/
theorem C69_too_large_partial (w : World) {n : ℕ} (hn : 0 < n) (D : Fin n → Fin n → XR ℝ) (k : ℕ)
    (test : Option (List ℤ)) (hk : (Spec.training n test).card < k) (nJobs : ℤ) :
    localScaling w (.mat false n n D) k "distance" test nJobs = .error .valueError ∧
    nicdm w (.mat false n n D) k "distance" test nJobs = .error .valueError := by
  rw [← trainInd_length] at hk
  constructor
  · rw [localScaling_dense w _ _ _ (Or.inl rfl), core_error w hn]
    · rfl
    · unfold kthOf Np.wrap
      rw [if_neg (by decide), dif_neg (by omega), dif_neg (by omega)]
  · rw [nicdm_dense, nicdmCore_error w hn _ _ _ _ hk]
    rfl

end HubToolbox.LS
