import Verif.Cent.Props

/-!
# Properties of `weighted_centering`
-/

set_option autoImplicit false

namespace HubToolbox.Cent

open HubToolbox

/-! ### Cosine distances -/

theorem inner_self_eq {m : ℕ} (x : Fin m → ℝ) : Spec.inner x x = ∑ f, x f ^ 2 := by
  unfold Spec.inner
  exact Finset.sum_congr rfl fun f _ => by ring

theorem inner_self_nonneg {m : ℕ} (x : Fin m → ℝ) : 0 ≤ Spec.inner x x :=
  Finset.sum_nonneg fun f _ => mul_self_nonneg _

theorem norm_pos {m : ℕ} (x : Fin m → ℝ) (h : x ≠ 0) : 0 < Spec.norm x := by
  unfold Spec.norm
  rw [Real.sqrt_pos]
  have hex : ∃ f, x f ≠ 0 := by
    by_contra hno
    push Not at hno
    exact h (funext hno)
  obtain ⟨f, hf⟩ := hex
  exact Finset.sum_pos' (fun f _ => mul_self_nonneg _) ⟨f, Finset.mem_univ f, mul_self_pos.2 hf⟩

theorem norm_zero {m : ℕ} : Spec.norm (0 : Fin m → ℝ) = 0 := by simp [Spec.norm, Spec.inner]

theorem cosine_le_one {m : ℕ} (x y : Fin m → ℝ) : Spec.cosine x y ≤ 1 := by
  unfold Spec.cosine
  refine div_le_one_of_le₀ ?_ (mul_nonneg (Real.sqrt_nonneg _) (Real.sqrt_nonneg _))
  unfold Spec.norm
  rw [inner_self_eq, inner_self_eq]
  exact Real.sum_mul_le_sqrt_mul_sqrt _ _ _

theorem cosine_comm {m : ℕ} (x y : Fin m → ℝ) : Spec.cosine x y = Spec.cosine y x := by
  unfold Spec.cosine Spec.inner
  rw [mul_comm (Spec.norm x)]
  congr 1
  exact Finset.sum_congr rfl fun f _ => mul_comm _ _

theorem norm_model {m : ℕ} (x : Fin m → ℝ) :
    XR.sqrt (XR.sum (fun f => XR.mul (.fin (x f)) (.fin (x f)))) = .fin (Spec.norm x) := by
  simp only [mul_fin, sum_fin]
  unfold XR.sqrt Spec.norm Spec.inner
  simp only
  rw [if_neg (not_lt.2 (Finset.sum_nonneg fun f _ => mul_self_nonneg _))]

/-- Vectors which are not zero. -/
theorem cosPair_eq {m : ℕ} (x y : Fin m → ℝ) (hx : x ≠ 0) (hy : y ≠ 0) :
    cosPair (fun f => .fin (x f)) (fun f => .fin (y f)) = .fin (1 - Spec.cosine x y) := by
  have h1 := (norm_pos x hx).ne'
  have h2 := (norm_pos y hy).ne'
  unfold cosPair
  simp only [norm_model]
  simp only [div_fin _ _ h1, div_fin _ _ h2, mul_fin, sum_fin, sub_fin]
  have : ∑ f, x f / Spec.norm x * (y f / Spec.norm y) = Spec.cosine x y := by
    unfold Spec.cosine Spec.inner
    rw [Finset.sum_div]
    refine Finset.sum_congr rfl fun f _ => ?_
    field_simp
  rw [this]
  unfold clip0
  rw [if_neg]
  simp only [XR.flt, not_lt, decide_eq_true_eq]
  linarith [cosine_le_one x y]

theorem mul_nan (a : XR ℝ) : XR.mul a .nan = .nan := by cases a <;> rfl
theorem nan_mul (a : XR ℝ) : XR.mul .nan a = .nan := by cases a <;> rfl

/-- A zero vector has no direction. -/
theorem cosPair_zero {m : ℕ} (hm : 0 < m) (y : Fin m → XR ℝ) : cosPair (fun _ => .fin 0) y = .nan := by
  unfold cosPair
  have h0 : XR.sqrt (XR.sum (fun _ : Fin m => XR.mul (.fin (0 : ℝ)) (.fin 0))) = .fin 0 := by
    rw [norm_model (fun _ => 0)]
    exact congrArg _ norm_zero
  simp only [h0]
  have : XR.div (.fin (0 : ℝ)) (.fin 0) = .nan := by simp [XR.div, XR.infMul]
  rw [this, sum_nan _ ⟨0, hm⟩ (nan_mul _), sub_nan]
  simp [clip0, XR.flt]

/-! ### The weights -/

/-- Weights given to the rows: `d ** gamma / sum(d ** gamma)` for the cosine distances `d` to `c`. -/
noncomputable def weight {n m : ℕ} (X : Fin n → Fin m → ℝ) (c : Fin m → ℝ) (gamma : ℝ) (j : Fin n) : ℝ :=
  (1 - Spec.cosine (X j) c) ^ gamma / ∑ a, (1 - Spec.cosine (X a) c) ^ gamma

theorem train_sum {n m : ℕ} (X : Fin n → Fin m → ℝ) (mask : Option (List ℤ)) (ht : (Spec.training n mask).Nonempty)
    (f : Fin m) :
    XR.div (XR.sum (fun c : Fin (LS.trainInd n mask).length => (.fin (X ((LS.trainInd n mask).get c) f) : XR ℝ)))
      (.fin ((LS.trainInd n mask).length : ℝ)) = .fin (Spec.centroid (Spec.training n mask) X f) := by
  have hne : LS.trainInd n mask ≠ [] := by
    intro h
    rw [← LS.trainInd_toFinset, h] at ht
    simp at ht
  have := rowsMean_eq X _ (LS.trainInd_nodup n mask) hne f
  rw [LS.trainInd_toFinset] at this
  exact this

theorem training_of_ne {n m : ℕ} (X : Fin n → Fin m → ℝ) (mask : Option (List ℤ))
    (hc : Spec.centroid (Spec.training n mask) X ≠ 0) : (Spec.training n mask).Nonempty := by
  by_contra h
  rw [Finset.not_nonempty_iff_eq_empty] at h
  apply hc
  funext f
  simp [Spec.centroid, h]

theorem centralities_cosine {n m : ℕ} (X : Fin n → Fin m → ℝ) (mask : Option (List ℤ)) (hX : ∀ i, X i ≠ 0)
    (hc : Spec.centroid (Spec.training n mask) X ≠ 0) :
    centralities X "cosine" (LS.trainInd n mask) = .ok (fun i =>
      .fin ((Spec.training n mask).card * (1 - Spec.cosine (X i) (Spec.centroid (Spec.training n mask) X)))) := by
  have ht := training_of_ne X mask hc
  unfold centralities
  simp only [if_true]
  congr 1
  funext i
  simp only [train_sum X mask ht, cosPair_eq _ _ (hX i) hc, mul_fin]
  rw [LS.trainInd_length]

/-- The admissible exponents: negative ones need all weights to be defined. -/
def Proper {n m : ℕ} (X : Fin n → Fin m → ℝ) (c : Fin m → ℝ) (gamma : ℝ) : Prop :=
  0 < n ∧ ((0 < gamma ∧ ∃ i, Spec.cosine (X i) c ≠ 1) ∨ ∀ i, Spec.cosine (X i) c ≠ 1)

theorem pow_nonneg' {m : ℕ} (x c : Fin m → ℝ) (gamma : ℝ) : 0 ≤ (1 - Spec.cosine x c) ^ gamma :=
  Real.rpow_nonneg (by linarith [cosine_le_one x c]) _

theorem pow_pos' {m : ℕ} (x c : Fin m → ℝ) (gamma : ℝ) (h : Spec.cosine x c ≠ 1) :
    0 < (1 - Spec.cosine x c) ^ gamma :=
  Real.rpow_pos_of_pos (by linarith [lt_of_le_of_ne (cosine_le_one x c) h]) _

theorem sum_pos' {n m : ℕ} (X : Fin n → Fin m → ℝ) (c : Fin m → ℝ) (gamma : ℝ) (h : Proper X c gamma) :
    0 < ∑ a, (1 - Spec.cosine (X a) c) ^ gamma := by
  have hex : ∃ i, Spec.cosine (X i) c ≠ 1 := by
    rcases h.2 with ⟨_, h⟩ | h'
    · exact h
    · exact ⟨⟨0, h.1⟩, h' _⟩
  obtain ⟨i, hi⟩ := hex
  exact Finset.sum_pos' (fun a _ => pow_nonneg' _ _ _) ⟨i, Finset.mem_univ i, pow_pos' _ _ _ hi⟩

/-- C39 (cosine): the origin moves to the mean of all vectors weighted with powers of their cosine distance to the
training centroid. -/
theorem C39_formula {n m : ℕ} (X : Fin n → Fin m → ℝ) (gamma : ℝ) (mask : Option (List ℤ)) (hX : ∀ i, X i ≠ 0)
    (hc : Spec.centroid (Spec.training n mask) X ≠ 0)
    (hp : Proper X (Spec.centroid (Spec.training n mask) X) gamma) :
    weightedCentering X "cosine" gamma mask = .ok (fun i f => .fin (X i f -
      ∑ j, weight X (Spec.centroid (Spec.training n mask) X) gamma j * X j f)) := by
  have ht := training_of_ne X mask hc
  obtain ⟨c, hcd⟩ : ∃ c, c = Spec.centroid (Spec.training n mask) X := ⟨_, rfl⟩
  obtain ⟨N, hN⟩ : ∃ N : ℝ, N = (Spec.training n mask).card := ⟨_, rfl⟩
  have hN0 : 0 < N := by rw [hN, Nat.cast_pos]; exact ht.card_pos
  rw [← hcd] at hp
  have hpow : ∀ i, powNN (.fin (N * (1 - Spec.cosine (X i) c))) gamma =
      .fin (N ^ gamma * (1 - Spec.cosine (X i) c) ^ gamma) := by
    intro i
    have h1 : 0 ≤ 1 - Spec.cosine (X i) c := by linarith [cosine_le_one (X i) c]
    unfold powNN
    by_cases hg : gamma = 0
    · rw [if_pos hg, hg]; simp
    · rw [if_neg hg]
      simp only
      rw [if_neg, Real.mul_rpow hN0.le h1]
      rintro ⟨h0, hneg⟩
      rcases mul_eq_zero.1 h0 with h0 | h0
      · exact hN0.ne' h0
      · rcases hp.2 with ⟨hpos, _⟩ | hall
        · linarith
        · exact hall i (by linarith)
  have hNg : 0 < N ^ gamma := Real.rpow_pos_of_pos hN0 _
  have hS := sum_pos' X c gamma hp
  have hw : ∀ i, XR.div (.fin (N ^ gamma * (1 - Spec.cosine (X i) c) ^ gamma))
      (.fin (∑ i, N ^ gamma * (1 - Spec.cosine (X i) c) ^ gamma)) = .fin (weight X c gamma i) := by
    intro i
    rw [← Finset.mul_sum, div_fin _ _ (mul_pos hNg hS).ne', mul_div_mul_left _ _ hNg.ne']
    rfl
  unfold weightedCentering
  rw [centralities_cosine X mask hX hc, ← hcd, ← hN]
  simp only [bind, Except.bind, pure, Except.pure, hpow, sum_fin, hw, mul_fin, sub_fin]

/-- C39 (partial): for vectors which are not zero, not all parallel to their nonzero mean, the subtracted vector is
a convex combination of the data. Missing: zero vectors and parallel vectors, see `C39_zero_vector_violated` and
`C39_parallel_violated`. -/
theorem C39_convex_partial {n m : ℕ} (X : Fin n → Fin m → ℝ) (gamma : ℝ) (mask : Option (List ℤ)) (hX : ∀ i, X i ≠ 0)
    (hc : Spec.centroid (Spec.training n mask) X ≠ 0)
    (hp : Proper X (Spec.centroid (Spec.training n mask) X) gamma) :
    ∃ w : Fin n → ℝ, (∀ j, 0 ≤ w j) ∧ ∑ j, w j = 1 ∧
      weightedCentering X "cosine" gamma mask = .ok (fun i f => .fin (X i f - ∑ j, w j * X j f)) := by
  refine ⟨_, fun j => ?_, ?_, C39_formula X gamma mask hX hc hp⟩
  · exact div_nonneg (pow_nonneg' _ _ _) (Finset.sum_nonneg fun a _ => pow_nonneg' _ _ _)
  · unfold weight
    rw [← Finset.sum_div, div_self (sum_pos' X _ gamma hp).ne']

theorem nan_div (a : XR ℝ) : XR.div .nan a = .nan := by cases a <;> rfl
theorem div_nan (a : XR ℝ) : XR.div a .nan = .nan := by cases a <;> rfl

/-- Weights which are not numbers make the whole result not a number. -/
theorem weighted_nan {n m : ℕ} (X : Fin n → Fin m → ℝ) (metric : String) (gamma : ℝ) (mask : Option (List ℤ))
    (d : Fin n → XR ℝ) (hd : centralities X metric (LS.trainInd n mask) = .ok d)
    (j : Fin n) (h : XR.div (powNN (d j) gamma) (XR.sum (fun i => powNN (d i) gamma)) = .nan) :
    weightedCentering X metric gamma mask = .ok (fun _ _ => .nan) := by
  unfold weightedCentering
  rw [hd]
  simp only [bind, Except.bind, pure, Except.pure]
  congr 1
  funext i f
  rw [sum_nan _ j (by rw [h, nan_mul]), sub_nan]

/-- C39: one zero vector turns the whole result into `nan`. -/
theorem C39_zero_vector_violated {n m : ℕ} (hm : 0 < m) (X : Fin n → Fin m → ℝ) (gamma : ℝ) (hg : gamma ≠ 0)
    (mask : Option (List ℤ)) (j : Fin n) (hj : X j = 0) :
    weightedCentering X "cosine" gamma mask = .ok (fun _ _ => .nan) := by
  refine weighted_nan X "cosine" gamma mask _ (by unfold centralities; rw [if_pos rfl]) j ?_
  have h0 : (fun f => (.fin (X j f) : XR ℝ)) = fun _ => .fin 0 := by rw [hj]; rfl
  simp only [h0, cosPair_zero hm, mul_nan]
  have : powNN .nan gamma = .nan := by unfold powNN; rw [if_neg hg]
  rw [this, nan_div]

/-- Cosine similarity of positive multiples. -/
theorem cosine_parallel {m : ℕ} (v : Fin m → ℝ) (hv : v ≠ 0) (a b : ℝ) (ha : 0 < a) (hb : 0 < b) :
    Spec.cosine (fun f => a * v f) (fun f => b * v f) = 1 := by
  have hn : ∀ c : ℝ, 0 < c → Spec.norm (fun f => c * v f) = c * Spec.norm v := by
    intro c hc
    unfold Spec.norm Spec.inner
    have : ∑ f, c * v f * (c * v f) = c ^ 2 * ∑ f, v f * v f := by
      rw [Finset.mul_sum]
      exact Finset.sum_congr rfl fun f _ => by ring
    rw [this, Real.sqrt_mul (by positivity), Real.sqrt_sq hc.le]
  have hin : Spec.inner (fun f => a * v f) (fun f => b * v f) = a * b * (Spec.norm v * Spec.norm v) := by
    unfold Spec.norm
    rw [Real.mul_self_sqrt (inner_self_nonneg v)]
    unfold Spec.inner
    rw [Finset.mul_sum]
    exact Finset.sum_congr rfl fun f _ => by ring
  unfold Spec.cosine
  rw [hn a ha, hn b hb, hin]
  have := (norm_pos v hv).ne'
  field_simp

/-- C39: if all vectors point in the same direction, the result is `nan` for every positive exponent. -/
theorem C39_parallel_violated {n m : ℕ} (hn : 0 < n) (v : Fin m → ℝ) (hv : v ≠ 0) (a : Fin n → ℝ)
    (ha : ∀ i, 0 < a i) (gamma : ℝ) (hg : 0 < gamma) :
    weightedCentering (fun i f => a i * v f) "cosine" gamma none = .ok (fun _ _ => .nan) := by
  have ht : Spec.training n none = Finset.univ := by simp [Spec.training]
  have hcard : (0 : ℝ) < (Finset.univ : Finset (Fin n)).card := by
    rw [Finset.card_univ, Fintype.card_fin, Nat.cast_pos]; exact hn
  have hs : 0 < (∑ i, a i) / (Finset.univ : Finset (Fin n)).card :=
    div_pos (Finset.sum_pos (fun i _ => ha i) ⟨⟨0, hn⟩, Finset.mem_univ _⟩) hcard
  have hc : Spec.centroid (Spec.training n none) (fun i f => a i * v f) =
      fun f => (∑ i, a i) / (Finset.univ : Finset (Fin n)).card * v f := by
    funext f
    unfold Spec.centroid
    rw [ht, ← Finset.sum_mul]
    ring
  have hne : ∀ b : ℝ, 0 < b → (fun f => b * v f) ≠ 0 := by
    intro b hb h0
    apply hv
    funext f
    exact (mul_eq_zero.1 (congrFun h0 f)).resolve_left hb.ne'
  have hd := centralities_cosine (fun i f => a i * v f) none (fun i => hne _ (ha i)) (by rw [hc]; exact hne _ hs)
  refine weighted_nan _ "cosine" gamma none _ hd ⟨0, hn⟩ ?_
  have hp : powNN (.fin (0 : ℝ)) gamma = .fin 0 := by
    unfold powNN
    rw [if_neg hg.ne']
    simp only
    rw [if_neg (fun h => by linarith [h.2]), Real.zero_rpow hg.ne']
  simp only [hc, cosine_parallel v hv _ _ (ha _) hs, sub_self, mul_zero, hp, sum_fin, Finset.sum_const_zero]
  simp [XR.div, XR.infMul]

/-! ### gamma = 0 and held-out data -/

/-- Equal weights for all rows amount to plain centering of all rows. -/
theorem weighted_equal {n m : ℕ} (X : Fin n → Fin m → ℝ) (metric : String) (gamma : ℝ) (mask : Option (List ℤ))
    (d : Fin n → XR ℝ) (hd : centralities X metric (LS.trainInd n mask) = .ok d) (p : ℝ) (hp : p ≠ 0)
    (h : ∀ i, powNN (d i) gamma = .fin p) :
    weightedCentering X metric gamma mask = centering X "vector" none := by
  unfold weightedCentering
  rw [hd]
  simp only [bind, Except.bind, pure, Except.pure, h, sum_fin]
  unfold centering
  rw [if_neg (by decide), if_pos rfl]
  congr 1
  funext i f
  have hn : (n : ℝ) ≠ 0 := by
    rw [Nat.cast_ne_zero]
    have := i.isLt
    omega
  have hs : (∑ _i : Fin n, p) ≠ 0 := by
    rw [Finset.sum_const, Finset.card_univ, Fintype.card_fin, nsmul_eq_mul]
    exact mul_ne_zero hn hp
  have hne : LS.trainInd n none ≠ [] := by
    have := i.isLt
    intro h0
    have hl := congrArg List.length h0
    simp [LS.trainInd] at hl
    omega
  rw [rowsMean_eq X _ (LS.trainInd_nodup n none) hne]
  simp only [div_fin _ _ hs, mul_fin, sum_fin]
  congr 2
  unfold Spec.centroid
  rw [LS.trainInd_toFinset]
  have ht : Spec.training n none = Finset.univ := by simp [Spec.training]
  rw [ht, Finset.sum_const, Finset.card_univ, Fintype.card_fin, nsmul_eq_mul, ← Finset.mul_sum]
  field_simp

/-- C39: `gamma = 0` is plain centering. -/
theorem C39_gamma_zero {n m : ℕ} (X : Fin n → Fin m → ℝ) (metric : String)
    (hm : metric = "cosine" ∨ metric = "euclidean") :
    weightedCentering X metric 0 none = centering X "vector" none := by
  have h1 : ∀ a, powNN a 0 = .fin 1 := fun a => by unfold powNN; rw [if_pos rfl]
  rcases hm with rfl | rfl
  · exact weighted_equal X _ 0 none _ (by unfold centralities; rw [if_pos rfl]) 1 one_ne_zero (fun i => h1 _)
  · exact weighted_equal X _ 0 none _ (by unfold centralities; rw [if_neg (by decide), if_pos rfl]) 1 one_ne_zero
      (fun i => h1 _)

/-- C39: with `gamma = 0` a test set has no effect at all. -/
theorem C39_mask_ignored {n m : ℕ} (X : Fin n → Fin m → ℝ) (metric : String)
    (hm : metric = "cosine" ∨ metric = "euclidean") (mask : Option (List ℤ)) :
    weightedCentering X metric 0 mask = centering X "vector" none := by
  have h1 : ∀ a, powNN a 0 = .fin 1 := fun a => by unfold powNN; rw [if_pos rfl]
  rcases hm with rfl | rfl
  · exact weighted_equal X _ 0 mask _ (by unfold centralities; rw [if_pos rfl]) 1 one_ne_zero (fun i => h1 _)
  · exact weighted_equal X _ 0 mask _ (by unfold centralities; rw [if_neg (by decide), if_pos rfl]) 1 one_ne_zero
      (fun i => h1 _)

/-- C39: a held-out vector changes the result for the training vector. -/
theorem C39_held_out_violated : ∃ (X X' Z Z' : Fin 2 → Fin 1 → ℝ), (∀ i ∈ Spec.training 2 (some [1]), X i = X' i) ∧
    weightedCentering X "cosine" 0 (some [1]) = .ok (fun i f => .fin (Z i f)) ∧
    weightedCentering X' "cosine" 0 (some [1]) = .ok (fun i f => .fin (Z' i f)) ∧ Z 0 0 ≠ Z' 0 0 ∧
    centering X "vector" (some [1]) ≠ weightedCentering X "cosine" 0 (some [1]) := by
  have ht : (Spec.training 2 none).Nonempty := by decide
  have ht1 : (Spec.training 2 (some [1])).Nonempty := by decide
  have hu : Spec.training 2 none = Finset.univ := by decide
  have hu1 : Spec.training 2 (some [1]) = {0} := by decide
  have e : ∀ X : Fin 2 → Fin 1 → ℝ, weightedCentering X "cosine" 0 (some [1]) =
      .ok (fun i f => .fin (X i f - Spec.centroid Finset.univ X f)) := by
    intro X
    rw [C39_mask_ignored _ _ (Or.inl rfl), C37_formula _ _ ht, hu]
  refine ⟨![![1], ![3]], ![![1], ![5]], _, _, ?_, e _, e _, ?_, ?_⟩
  · rw [hu1]
    intro i hi
    rw [Finset.mem_singleton.1 hi]
    rfl
  · norm_num [Spec.centroid, Fin.sum_univ_two]
  · rw [e, C37_formula _ _ ht1, hu1]
    intro h
    have := XR.fin.inj (congrFun (congrFun (Except.ok.inj h) 0) 0)
    norm_num [Spec.centroid, Fin.sum_univ_two] at this

/-- C39: other metrics are refused. -/
theorem C39_metric {n m : ℕ} (X : Fin n → Fin m → ℝ) (metric : String) (gamma : ℝ) (mask : Option (List ℤ))
    (h1 : metric ≠ "cosine") (h2 : metric ≠ "euclidean") :
    weightedCentering X metric gamma mask = .error .valueError := by
  unfold weightedCentering centralities
  rw [if_neg h1, if_neg h2]
  rfl

/-! ### C80: which vectors get large weights -/

/-- C80: for positive exponents the weight decreases with the similarity to the training centroid. -/
theorem C80_reversed_violated {n m : ℕ} (X : Fin n → Fin m → ℝ) (gamma : ℝ) (hg : 0 < gamma)
    (mask : Option (List ℤ)) (hX : ∀ i, X i ≠ 0) (hc : Spec.centroid (Spec.training n mask) X ≠ 0)
    (hp : ∃ i, Spec.cosine (X i) (Spec.centroid (Spec.training n mask) X) ≠ 1) :
    ∃ w : Fin n → ℝ, (∀ i j, Spec.cosine (X i) (Spec.centroid (Spec.training n mask) X) <
        Spec.cosine (X j) (Spec.centroid (Spec.training n mask) X) → w j < w i) ∧
      weightedCentering X "cosine" gamma mask = .ok (fun i f => .fin (X i f - ∑ j, w j * X j f)) := by
  have hpr : Proper X (Spec.centroid (Spec.training n mask) X) gamma := by
    obtain ⟨i, hi⟩ := hp
    have := i.isLt
    exact ⟨by omega, Or.inl ⟨hg, i, hi⟩⟩
  refine ⟨_, fun i j hij => ?_, C39_formula X gamma mask hX hc hpr⟩
  unfold weight
  refine div_lt_div_of_pos_right ?_ (sum_pos' X _ gamma hpr)
  refine Real.rpow_lt_rpow ?_ ?_ hg
  · linarith [cosine_le_one (X j) (Spec.centroid (Spec.training n mask) X)]
  · linarith

/-- C80 (partial): for negative exponents the weight increases with the similarity to the training centroid.
Missing: positive exponents, the documented use, where it is the other way round. -/
theorem C80_negative_gamma_partial {n m : ℕ} (X : Fin n → Fin m → ℝ) (gamma : ℝ) (hg : gamma < 0)
    (mask : Option (List ℤ)) (hX : ∀ i, X i ≠ 0) (hc : Spec.centroid (Spec.training n mask) X ≠ 0)
    (hp : ∀ i, Spec.cosine (X i) (Spec.centroid (Spec.training n mask) X) ≠ 1) :
    ∃ w : Fin n → ℝ, (∀ i j, Spec.cosine (X i) (Spec.centroid (Spec.training n mask) X) <
        Spec.cosine (X j) (Spec.centroid (Spec.training n mask) X) → w i < w j) ∧
      weightedCentering X "cosine" gamma mask = .ok (fun i f => .fin (X i f - ∑ j, w j * X j f)) := by
  have hn : 0 < n := by
    obtain ⟨i, _⟩ := training_of_ne X mask hc
    have := i.isLt
    omega
  have hpr : Proper X (Spec.centroid (Spec.training n mask) X) gamma := ⟨hn, Or.inr hp⟩
  refine ⟨_, fun i j hij => ?_, C39_formula X gamma mask hX hc hpr⟩
  unfold weight
  refine div_lt_div_of_pos_right ?_ (sum_pos' X _ gamma hpr)
  refine Real.rpow_lt_rpow_of_neg ?_ ?_ hg
  · linarith [lt_of_le_of_ne (cosine_le_one (X j) (Spec.centroid (Spec.training n mask) X)) (hp j)]
  · linarith

/-! ### C81: euclidean weights -/

/-- The `d` of the euclidean branch is the same number for all rows. -/
theorem centralities_euclidean {n m : ℕ} (X : Fin n → Fin m → ℝ) (mask : Option (List ℤ)) :
    centralities X "euclidean" (LS.trainInd n mask) =
      .ok (fun _ => .fin (∑ i ∈ Spec.training n mask, ∑ f, |X i f|)) := by
  unfold centralities
  rw [if_neg (by decide), if_pos rfl]
  refine congrArg Except.ok (funext fun _ => ?_)
  have : ∀ x : ℝ, XR.sqrt (XR.mul (.fin (x - 0)) (.fin (x - 0))) = .fin |x| := by
    intro x
    rw [mul_fin]
    unfold XR.sqrt
    simp only [sub_zero]
    rw [if_neg (not_lt.2 (mul_self_nonneg x)), ← pow_two, Real.sqrt_sq_eq_abs]
  simp only [this, sum_fin]
  rw [sum_get _ (LS.trainInd_nodup n mask) (fun i => ∑ f, |X i f|), LS.trainInd_toFinset]

/-- C81: with `metric='euclidean'` the distances between the vectors, the exponent and the test set have no influence:
the result is that of plain centering with all vectors. -/
theorem C81_euclidean_violated {n m : ℕ} (X : Fin n → Fin m → ℝ) (gamma : ℝ) (mask : Option (List ℤ))
    (h : ∃ i ∈ Spec.training n mask, X i ≠ 0) :
    weightedCentering X "euclidean" gamma mask = centering X "vector" none := by
  have hpos : 0 < ∑ i ∈ Spec.training n mask, ∑ f, |X i f| := by
    obtain ⟨i, hi, hne⟩ := h
    have hex : ∃ f, X i f ≠ 0 := by
      by_contra hno
      push Not at hno
      exact hne (funext hno)
    obtain ⟨f, hf⟩ := hex
    refine Finset.sum_pos' (fun i _ => Finset.sum_nonneg fun f _ => abs_nonneg _) ⟨i, hi, ?_⟩
    exact Finset.sum_pos' (fun f _ => abs_nonneg _) ⟨f, Finset.mem_univ f, abs_pos.2 hf⟩
  refine weighted_equal X _ gamma mask _ (centralities_euclidean X mask)
    ((∑ i ∈ Spec.training n mask, ∑ f, |X i f|) ^ gamma) (Real.rpow_pos_of_pos hpos _).ne' (fun i => ?_)
  unfold powNN
  by_cases hg : gamma = 0
  · rw [if_pos hg, hg]; simp
  · rw [if_neg hg]
    simp only
    rw [if_neg (fun h => hpos.ne' h.1)]

/-! ### Examples -/

/-- Vectors in the plane with the centroid `(1, 1)`. -/
def plane : Fin 3 → Fin 2 → ℝ := ![![3, 0], ![0, 2], ![0, 1]]

theorem plane_centroid : Spec.centroid (Spec.training 3 none) plane = ![1, 1] := by
  have hu : Spec.training 3 none = Finset.univ := by decide
  rw [hu]
  funext f
  unfold Spec.centroid
  rw [Fin.sum_univ_three]
  have h0 : plane 0 = ![3, 0] := rfl
  have h1 : plane 1 = ![0, 2] := rfl
  have h2 : plane 2 = ![0, 1] := rfl
  rw [h0, h1, h2]
  fin_cases f <;> norm_num

theorem plane_ne (i : Fin 3) : plane i ≠ 0 := by
  fin_cases i
  · intro h; have := congrFun h 0; norm_num [plane] at this
  · intro h; have := congrFun h 1; norm_num [plane] at this
  · intro h; have := congrFun h 1; norm_num [plane] at this

/-- The hypotheses of `C39_formula`, `C39_convex_partial`, `C80_reversed_violated`, `C80_negative_gamma_partial`. -/
example : (∀ i, plane i ≠ 0) ∧ Spec.centroid (Spec.training 3 none) plane ≠ 0 ∧
    ∀ i, Spec.cosine (plane i) (Spec.centroid (Spec.training 3 none) plane) ≠ 1 := by
  refine ⟨plane_ne, ?_, ?_⟩
  · rw [plane_centroid]
    intro h
    have := congrFun h 0
    norm_num at this
  · rw [plane_centroid]
    have key : ∀ (x : ℝ) (v : Fin 2 → ℝ), 0 < x → Spec.inner v ![1, 1] = x → Spec.inner v v = x ^ 2 →
        Spec.cosine v ![1, 1] ≠ 1 := by
      intro x v hx h1 h2 h
      unfold Spec.cosine Spec.norm at h
      rw [h1, h2, Real.sqrt_sq hx.le] at h
      have h3 : Spec.inner (![1, 1] : Fin 2 → ℝ) ![1, 1] = 2 := by norm_num [Spec.inner, Fin.sum_univ_two]
      rw [h3] at h
      have hs : (√2 : ℝ) = 1 := by
        have h2 : (√2 : ℝ) ≠ 0 := by positivity
        field_simp at h
        exact h.symm
      have := Real.sq_sqrt (show (0 : ℝ) ≤ 2 by norm_num)
      rw [hs] at this
      norm_num at this
    intro i
    fin_cases i
    · exact key 3 _ (by norm_num) (by norm_num [Spec.inner, plane, Fin.sum_univ_two])
        (by norm_num [Spec.inner, plane, Fin.sum_univ_two])
    · exact key 2 _ (by norm_num) (by norm_num [Spec.inner, plane, Fin.sum_univ_two])
        (by norm_num [Spec.inner, plane, Fin.sum_univ_two])
    · exact key 1 _ (by norm_num) (by norm_num [Spec.inner, plane, Fin.sum_univ_two])
        (by norm_num [Spec.inner, plane, Fin.sum_univ_two])

example : ∃ i ∈ Spec.training 3 (some [2]), plane i ≠ 0 := ⟨0, by decide, plane_ne 0⟩
example : (![1, 0] : Fin 2 → ℝ) ≠ 0 := by intro h; have := congrFun h 0; norm_num at this

end HubToolbox.Cent
