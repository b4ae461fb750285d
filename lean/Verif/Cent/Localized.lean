import Verif.Cent.Weighted
import Verif.Cent.Local

/-!
# Properties of `localized_centering`, and boolean masks
-/

set_option autoImplicit false

namespace HubToolbox.Cent

open HubToolbox

/-! ### Unit vectors -/

theorem unit_eq {n m : ℕ} (X : Fin n → Fin m → ℝ) (i : Fin n) (f : Fin m) :
    unit X i f = X i f / Spec.norm (X i) := by
  unfold unit
  have hn : √(∑ g, X i g ^ 2) = Spec.norm (X i) := by unfold Spec.norm; rw [inner_self_eq]
  simp only [hn]
  by_cases h : Spec.norm (X i) = 0
  · have h0 : X i = 0 := by
      by_contra hne
      exact (norm_pos _ hne).ne' h
    rw [h0]
    simp
  · rw [if_neg h]

theorem unit_dot {n l m : ℕ} (X : Fin n → Fin m → ℝ) (Y : Fin l → Fin m → ℝ) (i : Fin n) (j : Fin l) :
    ∑ f, unit X i f * unit Y j f = Spec.cosine (X i) (Y j) := by
  simp only [unit_eq]
  unfold Spec.cosine Spec.inner
  rw [Finset.sum_div]
  exact Finset.sum_congr rfl fun f _ => div_mul_div_comm _ _ _ _

/-- Positive factors do not change unit vectors. -/
theorem unit_scale {n m : ℕ} (X : Fin n → Fin m → ℝ) (a : Fin n → ℝ) (ha : ∀ i, 0 < a i) :
    unit (fun i f => a i * X i f) = unit X := by
  funext i f
  rw [unit_eq, unit_eq]
  have hn : Spec.norm (fun f => a i * X i f) = a i * Spec.norm (X i) := by
    unfold Spec.norm Spec.inner
    have : ∑ f, a i * X i f * (a i * X i f) = a i ^ 2 * ∑ f, X i f * X i f := by
      rw [Finset.mul_sum]
      exact Finset.sum_congr rfl fun f _ => by ring
    rw [this, Real.sqrt_mul (by positivity), Real.sqrt_sq (ha i).le]
  rw [hn, mul_div_mul_left _ _ (ha i).ne']

/-! ### Neighbourhoods -/

theorem lastOf_sel {K : Type} [LinearOrder K] (o : ArgPart (XR K)) {m : ℕ} (k : ℕ) (h1 : 1 ≤ k) (hk : k ≤ m)
    (s : Fin m → XR K) : ∃ L, lastOf o (k : ℤ) s = .ok L ∧ SNN.Sel "similarity" s k L := by
  obtain ⟨L, hL, hs⟩ := SNN.hood_similarity o k h1 hk s
  refine ⟨L, ?_, hs⟩
  rw [← hL]
  have hw : Np.wrap m (-(k : ℤ)) = some ⟨m - k, by omega⟩ := by
    unfold Np.wrap
    rw [dif_neg (by omega), dif_pos (by omega)]
    congr 2
    omega
  have hw' : Np.wrap m ((m : ℤ) - k) = some ⟨m - k, by omega⟩ := by
    rw [Np.wrap_of_nonneg (by omega) (by omega)]; congr 2; omega
  unfold lastOf SNN.hood Np.argpartition
  rw [Np.wrapAll_const, Np.wrapAll_const, hw, hw']
  simp only [Option.map_some, bind, Except.bind, pure, Except.pure]
  congr 1
  unfold SNN.top
  rw [SNN.slice0_nat, if_pos rfl]
  congr 1
  rw [if_pos (by omega), max_eq_left (by omega)]
  omega

theorem Sel.congr {m : ℕ} {s : Fin m → XR ℝ} {k : ℕ} {L : List (Fin m)} (h : SNN.Sel "similarity" s k L)
    (x : Fin m → ℝ) (hx : ∀ j, s j = .fin (x j)) (hk : k ≤ m) :
    Spec.IsHood (Spec.nearer "similarity") Finset.univ x k L.toFinset :=
  SNN.Sel.isHood (Or.inr rfl) h _ _ (fun j _ => hx j) (fun j hj => absurd (Finset.mem_univ j) hj)
    (by rw [Finset.card_univ, Fintype.card_fin]; omega)

/-! ### Affinities -/

/-- Neighbours of all rows. -/
noncomputable def nns (w : SNN.World ℝ) (kappa : ℤ) {l m : ℕ} (W : Fin l → Fin m → ℝ) : Py (Fin l → List (Fin l)) :=
  Np.tabulateM (fun i => lastOf w.part kappa (fun j => .fin (∑ f, W i f * W j f)))

theorem exec_each (w : SNN.World ℝ) {l : ℕ} (A : Fin l → XR ℝ) :
    Sched.exec (fun _ : Fin l => (.fin 0 : XR ℝ)) (w.sched ((List.finRange l).map (fun (i : Fin l) => (i, A i)))) = A := by
  funext i
  have hmem : ∀ x : Fin l × XR ℝ, x ∈ w.sched ((List.finRange l).map (fun (i : Fin l) => (i, A i))) ↔
      ∃ i, x = (i, A i) := by
    intro x
    rw [(w.sched_perm _).mem_iff, List.mem_map]
    constructor
    · rintro ⟨i, _, rfl⟩; exact ⟨i, rfl⟩
    · rintro ⟨i, rfl⟩; exact ⟨i, List.mem_finRange i, rfl⟩
  refine Sched.exec_of_consistent _ _ _ _ ((hmem _).2 ⟨i, rfl⟩) ?_
  intro x hx he
  obtain ⟨a, rfl⟩ := (hmem x).1 hx
  simp only at he
  rw [he]

theorem affinities_eq (w : SNN.World ℝ) (kappa nJobs : ℤ) {l m : ℕ} (W : Fin l → Fin m → ℝ) :
    affinities w kappa nJobs W = (nns w kappa W).map (fun nn => fun i =>
      XR.sum (fun f => XR.mul (.fin (W i f)) (rowsMean W (nn i) f))) := by
  unfold affinities nns
  have := tabulateM_congr_map (fun i => lastOf w.part kappa (fun j => (.fin (∑ f, W i f * W j f) : XR ℝ)))
    (fun i l => XR.sum (fun f => XR.mul (.fin (W i f)) (rowsMean W l f)))
  simp only [bind, pure, Except.pure] at this ⊢
  rw [this]
  cases Np.tabulateM (fun i => lastOf w.part kappa (fun j => (.fin (∑ f, W i f * W j f) : XR ℝ))) with
  | error e => rfl
  | ok a =>
    simp only [Except.map, Except.bind, exec_each]
    split <;> rfl

/-! ### C85: serial and parallel -/

/-- C85: the number of jobs does not matter. -/
theorem C85_jobs (w : SNN.World ℝ) {n m : ℕ} (X : Fin n → Fin m → ℝ) (Y : Option (Σ l m' : ℕ, Fin l → Fin m' → ℝ))
    (kappa : ℤ) (gamma : ℝ) (nJobs nJobs' : ℤ) :
    localizedCentering w X Y kappa gamma nJobs = localizedCentering w X Y kappa gamma nJobs' := by
  unfold localizedCentering
  simp only [affinities_eq]

/-! ### C86: scaling -/

/-- C86: positive factors for the vectors do not matter. -/
theorem C86_scale (w : SNN.World ℝ) {n m : ℕ} (X : Fin n → Fin m → ℝ) (a : Fin n → ℝ) (ha : ∀ i, 0 < a i)
    (kappa : ℤ) (gamma : ℝ) (nJobs : ℤ) :
    localizedCentering w (fun i f => a i * X i f) none kappa gamma nJobs =
      localizedCentering w X none kappa gamma nJobs := by
  unfold localizedCentering
  simp only [Option.getD_none, dif_pos, Fin.cast_eq_self, unit_scale X a ha]

/-- C86: the same with training vectors. -/
theorem C86_scale_test (w : SNN.World ℝ) {n l m : ℕ} (X : Fin n → Fin m → ℝ) (Y : Fin l → Fin m → ℝ)
    (a : Fin n → ℝ) (ha : ∀ i, 0 < a i) (b : Fin l → ℝ) (hb : ∀ i, 0 < b i) (kappa : ℤ) (gamma : ℝ) (nJobs : ℤ) :
    localizedCentering w (fun i f => a i * X i f) (some ⟨l, m, fun j f => b j * Y j f⟩) kappa gamma nJobs =
      localizedCentering w X (some ⟨l, m, Y⟩) kappa gamma nJobs := by
  unfold localizedCentering
  simp only [Option.getD_some, dif_pos, Fin.cast_eq_self, unit_scale X a ha, unit_scale Y b hb]

/-! ### C87: the formula -/

/-- Mean cosine similarity of a vector to those of `N`. -/
noncomputable def meanCosine {l m : ℕ} (Y : Fin l → Fin m → ℝ) (N : Finset (Fin l)) (i : Fin l) : ℝ :=
  (∑ j ∈ N, Spec.cosine (Y i) (Y j)) / N.card

/-- The penalty: a power of the affinities, unless one of them is negative. -/
noncomputable def penalty {l : ℕ} (A : Fin l → ℝ) (gamma : ℝ) (j : Fin l) : ℝ :=
  open Classical in if ∀ i, 0 ≤ A i then A j ^ gamma else A j

theorem nns_ok (w : SNN.World ℝ) {l m : ℕ} (k : ℕ) (h1 : 1 ≤ k) (hk : k ≤ l) (Y : Fin l → Fin m → ℝ) :
    ∃ nn : Fin l → List (Fin l), nns w k (unit Y) = .ok nn ∧
      ∀ i, (nn i).Nodup ∧ (nn i).length = k ∧
        Spec.IsHood (Spec.nearer "similarity") Finset.univ (fun j => Spec.cosine (Y i) (Y j)) k (nn i).toFinset := by
  have h : ∀ i, ∃ L, lastOf w.part (k : ℤ) (fun j => (.fin (∑ f, unit Y i f * unit Y j f) : XR ℝ)) = .ok L ∧
      SNN.Sel "similarity" (fun j => (.fin (∑ f, unit Y i f * unit Y j f) : XR ℝ)) k L :=
    fun i => lastOf_sel w.part k h1 hk _
  choose nn hs hsel using h
  refine ⟨nn, ?_, fun i => ⟨(hsel i).nodup, (hsel i).length, ?_⟩⟩
  · unfold nns
    rw [funext hs, Np.tabulateM_ok]
  · refine Sel.congr (hsel i) _ (fun j => ?_) hk
    rw [unit_dot]

theorem affinity_eq {l m : ℕ} (Y : Fin l → Fin m → ℝ) (L : List (Fin l)) (hl : L.Nodup) (hne : L ≠ []) (i : Fin l) :
    XR.sum (fun f => XR.mul (.fin (unit Y i f)) (rowsMean (unit Y) L f)) = .fin (meanCosine Y L.toFinset i) := by
  simp only [rowsMean_eq (unit Y) L hl hne, mul_fin, sum_fin]
  congr 1
  unfold meanCosine Spec.centroid
  rw [Finset.sum_congr rfl (fun j _ => (unit_dot Y Y i j).symm), Finset.sum_comm, Finset.sum_div]
  refine Finset.sum_congr rfl fun f _ => ?_
  rw [← Finset.mul_sum]
  ring

theorem penalty_model {l : ℕ} (A : Fin l → ℝ) (gamma : ℝ) (hg : 0 ≤ gamma) :
    (if gamma ≠ 1 ∧ ∀ j, ¬ XR.flt (.fin (A j) : XR ℝ) (.fin 0) then (fun j => powNN (.fin (A j)) gamma)
      else fun j => .fin (A j)) = fun j => .fin (penalty A gamma j) := by
  have hflt : (∀ j, ¬ XR.flt (.fin (A j) : XR ℝ) (.fin 0)) ↔ ∀ j, 0 ≤ A j := by
    simp only [XR.flt, not_lt]
  simp only [hflt]
  unfold penalty
  by_cases hA : ∀ j, 0 ≤ A j
  · simp only [if_pos hA]
    by_cases h1 : gamma = 1
    · rw [if_neg (fun h => h.1 h1)]
      simp [h1]
    · rw [if_pos ⟨h1, hA⟩]
      funext j
      unfold powNN
      by_cases h0 : gamma = 0
      · rw [if_pos h0, h0]; simp
      · rw [if_neg h0]
        simp only
        rw [if_neg (fun h => not_lt.2 hg h.2)]
  · simp only [if_neg hA]
    rw [if_neg (fun h => hA h.2)]

theorem localized_some (w : SNN.World ℝ) {n l m : ℕ} (X : Fin n → Fin m → ℝ) (Y : Fin l → Fin m → ℝ) (k : ℕ)
    (h1 : 1 ≤ k) (hk : k ≤ l) (gamma : ℝ) (hg : 0 ≤ gamma) :
    ∃ N : Fin l → Finset (Fin l),
      (∀ i, Spec.IsHood (Spec.nearer "similarity") Finset.univ (fun j => Spec.cosine (Y i) (Y j)) k (N i)) ∧
      ∀ nJobs : ℤ, localizedCentering w X (some ⟨l, m, Y⟩) k gamma nJobs = .ok ⟨l, fun i j =>
        .fin (Spec.cosine (X i) (Y j) - penalty (fun j => meanCosine Y (N j) j) gamma j)⟩ := by
  obtain ⟨nn, hnn, hN⟩ := nns_ok w k h1 hk Y
  refine ⟨fun i => (nn i).toFinset, fun i => (hN i).2.2, fun nJobs => ?_⟩
  have hne : ∀ i, nn i ≠ [] := by
    intro i h
    have := (hN i).2.1
    rw [h] at this
    simp at this
    omega
  unfold localizedCentering
  simp only [Option.getD_some, dif_pos, Fin.cast_eq_self, affinities_eq]
  rw [show (fun (j : Fin l) (f : Fin m) => unit Y j f) = unit Y from rfl, hnn]
  simp only [Except.map, bind, Except.bind, pure, Except.pure, affinity_eq Y _ (hN _).1 (hne _), unit_dot]
  have hp := penalty_model (fun j => meanCosine Y (nn j).toFinset j) gamma hg
  rw [hp]
  simp only [sub_fin]

/-- C87: the similarity is the cosine similarity minus the penalty of the training vector: its mean cosine similarity
to its `kappa` most similar training vectors, raised to the power `gamma` unless an affinity is negative. -/
theorem C87_formula (w : SNN.World ℝ) {n l m : ℕ} (X : Fin n → Fin m → ℝ) (Y : Fin l → Fin m → ℝ) (k : ℕ)
    (h1 : 1 ≤ k) (hk : k ≤ l) (gamma : ℝ) (hg : 0 ≤ gamma) :
    ∃ N : Fin l → Finset (Fin l),
      (∀ i, Spec.IsHood (Spec.nearer "similarity") Finset.univ (fun j => Spec.cosine (Y i) (Y j)) k (N i)) ∧
      ∀ nJobs : ℤ, localizedCentering w X (some ⟨l, m, Y⟩) k gamma nJobs = .ok ⟨l, fun i j =>
        .fin (Spec.cosine (X i) (Y j) - penalty (fun j => meanCosine Y (N j) j) gamma j)⟩ :=
  localized_some w X Y k h1 hk gamma hg

/-- C87: calling it with the data as training data, too, makes no difference. -/
theorem C87_one_argument (w : SNN.World ℝ) {n m : ℕ} (X : Fin n → Fin m → ℝ) (kappa : ℤ) (gamma : ℝ) (nJobs : ℤ) :
    localizedCentering w X none kappa gamma nJobs = localizedCentering w X (some ⟨n, m, X⟩) kappa gamma nJobs := rfl

/-- C87: `kappa` greater than the number of training vectors is refused. -/
theorem C87_too_large (w : SNN.World ℝ) {n l m : ℕ} (X : Fin n → Fin m → ℝ) (Y : Fin l → Fin m → ℝ) (kappa : ℤ)
    (gamma : ℝ) (nJobs : ℤ) (hl : 0 < l) (hk : (l : ℤ) < kappa) :
    localizedCentering w X (some ⟨l, m, Y⟩) kappa gamma nJobs = .error .valueError := by
  have hs : ∀ W : Fin l → Fin m → ℝ, nns w kappa W = .error .valueError := by
    intro W
    unfold nns
    have : ∀ d : Fin l → XR ℝ, lastOf w.part kappa d = .error .valueError := by
      intro d
      unfold lastOf Np.argpartition
      rw [Np.wrapAll_const]
      have : Np.wrap l (-kappa) = none := by
        unfold Np.wrap
        rw [dif_neg (by omega), dif_neg (by omega)]
      rw [this]
      rfl
    simp only [this]
    exact Np.tabulateM_error hl _
  unfold localizedCentering
  simp only [Option.getD_some, dif_pos, Fin.cast_eq_self, affinities_eq, hs]
  rfl

/-! ### C88: all vectors as neighbourhood -/

/-- C88: with `kappa = n` and `gamma = 1` every row ranks the training vectors as do inner products of the unit
vectors centred at their mean: the values differ by one number per row. -/
theorem C88_kappa_n (w : SNN.World ℝ) {n l m : ℕ} (X : Fin n → Fin m → ℝ) (Y : Fin l → Fin m → ℝ) (hl : 1 ≤ l)
    (nJobs : ℤ) :
    ∃ (S : Fin n → Fin l → ℝ) (r : Fin n → ℝ),
      localizedCentering w X (some ⟨l, m, Y⟩) l 1 nJobs = .ok ⟨l, fun i j => .fin (S i j)⟩ ∧
      ∀ i j, S i j = r i + Spec.inner
        (fun f => X i f / Spec.norm (X i) - Spec.centroid Finset.univ (fun j f => Y j f / Spec.norm (Y j)) f)
        (fun f => Y j f / Spec.norm (Y j) - Spec.centroid Finset.univ (fun j f => Y j f / Spec.norm (Y j)) f) := by
  obtain ⟨N, hN, h⟩ := localized_some w X Y l hl le_rfl 1 zero_le_one
  obtain ⟨c, hc⟩ : ∃ c, c = Spec.centroid Finset.univ (fun (j : Fin l) (f : Fin m) => Y j f / Spec.norm (Y j)) :=
    ⟨_, rfl⟩
  refine ⟨_, fun i => Spec.inner (fun f => X i f / Spec.norm (X i) - c f) c, h nJobs, fun i j => ?_⟩
  have huniv : ∀ j, N j = Finset.univ := fun j =>
    Finset.eq_univ_of_card _ (by rw [(hN j).card, Fintype.card_fin])
  have hpen : penalty (fun j => meanCosine Y (N j) j) 1 j = meanCosine Y (N j) j := by
    unfold penalty
    split <;> simp
  have hm : meanCosine Y Finset.univ j = Spec.inner (fun f => Y j f / Spec.norm (Y j)) c := by
    unfold meanCosine
    rw [hc]
    unfold Spec.centroid Spec.inner
    rw [Finset.sum_congr rfl (fun a _ => (unit_dot Y Y j a).symm), Finset.sum_comm, Finset.sum_div]
    refine Finset.sum_congr rfl fun f _ => ?_
    simp only [unit_eq]
    rw [← Finset.mul_sum]
    ring
  rw [hpen, huniv, hm, ← hc, ← unit_dot]
  unfold Spec.inner
  simp only [unit_eq]
  rw [← Finset.sum_sub_distrib, ← Finset.sum_add_distrib]
  refine Finset.sum_congr rfl fun f _ => ?_
  ring

/-! ### C84: boolean masks -/

/-- `np.setdiff1d(np.arange(n), mask)` compares the truth values with the row numbers as zeros and ones. -/
def boolMask (b : List Bool) : List ℤ := b.map (fun t => if t then 1 else 0)

/-- C84: a boolean mask holds back the rows marked by it in exactly one case: at least three rows of which the first
two are marked. -/
theorem C84_boolean_mask_violated {n : ℕ} (hn : 0 < n) (b : Fin n → Bool) :
    (LS.trainInd n (some (boolMask (List.ofFn b)))).toFinset = Finset.univ.filter (fun i => b i = false) ↔
      3 ≤ n ∧ ∀ i, b i = decide (i.val < 2) := by
  rw [LS.trainInd_toFinset]
  have hmem : ∀ i : Fin n, i ∈ Spec.training n (some (boolMask (List.ofFn b))) ↔
      (i.val = 0 → ∀ j, b j = true) ∧ (i.val = 1 → ∀ j, b j = false) := by
    intro i
    simp only [Spec.training, Finset.mem_filter, Finset.mem_univ, true_and, Option.some.injEq, forall_eq', boolMask,
      List.mem_map, List.mem_ofFn, not_exists, not_and]
    constructor
    · intro h
      constructor
      · intro hi j
        by_contra hj
        exact h (b j) ⟨j, rfl⟩ (by rw [hi]; simp [hj])
      · intro hi j
        by_contra hj
        exact h (b j) ⟨j, rfl⟩ (by rw [hi]; simp [hj])
    · rintro ⟨h0, h1⟩ t ⟨j, rfl⟩ ht
      by_cases hj : b j = true
      · rw [if_pos hj] at ht
        have := h1 (by omega) j
        rw [hj] at this
        cases this
      · rw [if_neg hj] at ht
        exact hj (h0 (by omega) j)
  rw [Finset.ext_iff]
  simp only [hmem, Finset.mem_filter, Finset.mem_univ, true_and]
  constructor
  · intro h
    have h0 := h ⟨0, hn⟩
    simp only [true_imp_iff] at h0
    have b0 : b ⟨0, hn⟩ = true := by
      by_contra hb
      have := (h0.2 (by simpa using hb)).1 ⟨0, hn⟩
      exact hb this
    have hnot : ¬ ∀ j, b j = true := by
      intro hall
      have := h0.1 ⟨hall, fun h' => absurd h' (by norm_num)⟩
      rw [b0] at this
      cases this
    obtain ⟨j, hj⟩ := not_forall.1 hnot
    have hj0 : j.val ≠ 0 := fun h' => hj (by rw [← b0]; congr 1; exact Fin.ext h')
    have hjlt := j.isLt
    have h1 := h ⟨1, by omega⟩
    have b1 : b ⟨1, by omega⟩ = true := by
      by_contra hb
      have := (h1.2 (by simpa using hb)).2 rfl ⟨0, hn⟩
      rw [b0] at this
      cases this
    have hj1 : j.val ≠ 1 := fun h' => hj (by rw [← b1]; congr 1; exact Fin.ext h')
    refine ⟨by omega, fun i => ?_⟩
    by_cases hi : i.val < 2
    · rw [decide_eq_true hi]
      have : i.val = 0 ∨ i.val = 1 := by omega
      rcases this with h' | h'
      · rw [← b0]; congr 1; exact Fin.ext h'
      · rw [← b1]; congr 1; exact Fin.ext h'
    · rw [decide_eq_false hi]
      exact (h i).1 ⟨fun h' => absurd h' (by omega), fun h' => absurd h' (by omega)⟩
  · rintro ⟨h3, hb⟩ i
    rw [hb i]
    constructor
    · rintro ⟨h0, h1⟩
      refine decide_eq_false fun hi => ?_
      have : i.val = 0 ∨ i.val = 1 := by omega
      rcases this with h' | h'
      · have := h0 h' ⟨2, by omega⟩
        rw [hb] at this
        simp at this
      · have := h1 h' ⟨0, by omega⟩
        rw [hb] at this
        simp at this
    · intro hi
      have : ¬ i.val < 2 := by simpa using hi
      exact ⟨fun h' => absurd h' (by omega), fun h' => absurd h' (by omega)⟩

/-- C84: so `centering` of three numbers with the last one marked as test set uses the last one only. -/
theorem C84_boolean_example : ∃ Z : Fin 3 → Fin 1 → ℚ,
    centering ![![1], ![3], ![8]] "vector" (some (boolMask [false, false, true])) = .ok (fun i f => .fin (Z i f)) ∧
    Z 0 0 = -7 ∧ Z 2 0 = 0 := by
  refine ⟨_, C37_formula _ _ (by decide), ?_, ?_⟩ <;> decide +kernel

/-- C84 (partial): the row numbers of the marked rows work as intended. Missing: the truth values themselves. -/
theorem C84_index_mask_partial {n : ℕ} (b : Fin n → Bool) :
    (LS.trainInd n (some (((List.finRange n).filter b).map (fun i : Fin n => (i.val : ℤ))))).toFinset =
      Finset.univ.filter (fun i => b i = false) := by
  rw [LS.trainInd_toFinset]
  ext i
  simp only [Spec.training, Finset.mem_filter, Finset.mem_univ, true_and, Option.some.injEq, forall_eq',
    List.mem_map, List.mem_filter, List.mem_finRange, not_exists, not_and]
  constructor
  · intro h
    by_contra hb
    exact h i (by simpa using hb) rfl
  · intro h j hj hij
    have : j = i := Fin.ext (by exact_mod_cast hij)
    rw [this, h] at hj
    cases hj

/-! ### Examples -/

/-- An ordinary machine. -/
noncomputable def worldR : SNN.World ℝ where
  cpu := 4
  cpu_pos := by decide
  part := ArgPart.ofInsertion _
  srt := Knn.ArgSort.ofSort _
  sched := fun l => l.reverse
  sched_perm := fun l => List.reverse_perm l

example : ∃ N : Fin 3 → Finset (Fin 3), (∀ i, (N i).card = 2) ∧ ∀ nJobs : ℤ,
    localizedCentering worldR plane (some ⟨3, 2, plane⟩) 2 2 nJobs = .ok ⟨3, fun i j =>
        .fin (Spec.cosine (plane i) (plane j) - penalty (fun j => meanCosine plane (N j) j) 2 j)⟩ := by
  obtain ⟨N, hN, h⟩ := C87_formula worldR plane plane 2 (by decide) (by decide) 2 (by norm_num)
  exact ⟨N, fun i => (hN i).card, h⟩

end HubToolbox.Cent
