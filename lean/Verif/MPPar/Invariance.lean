import Verif.MPPar.Props

/-!
# Invariance properties of dense Mutual Proximity with independent normal or Gamma distributions
-/

set_option autoImplicit false

namespace HubToolbox.MPPar

open HubToolbox

theorem mean_affine {ι : Type} (N : Finset ι) (hN : N.Nonempty) (f g : ι → ℝ) (a b : ℝ) (h : ∀ c ∈ N, g c = a * f c + b) :
    Spec.meanOver N g = a * Spec.meanOver N f + b := by
  have hc : (N.card : ℝ) ≠ 0 := by exact_mod_cast (Finset.card_pos.mpr hN).ne'
  unfold Spec.meanOver
  rw [Finset.sum_congr rfl h, Finset.sum_add_distrib, ← Finset.mul_sum, Finset.sum_const, nsmul_eq_mul]
  field_simp

theorem sq_affine {ι : Type} (N : Finset ι) (hN : N.Nonempty) (f g : ι → ℝ) (a b : ℝ) (h : ∀ c ∈ N, g c = a * f c + b) :
    ∑ c ∈ N, (g c - Spec.meanOver N g) ^ 2 = a ^ 2 * ∑ c ∈ N, (f c - Spec.meanOver N f) ^ 2 := by
  rw [mean_affine N hN f g a b h, Finset.mul_sum]
  refine Finset.sum_congr rfl fun c hc => ?_
  rw [h c hc]
  ring

theorem std_affine {ι : Type} (N : Finset ι) (hN : N.Nonempty) (f g : ι → ℝ) (a b : ℝ) (h : ∀ c ∈ N, g c = a * f c + b) :
    Spec.stdDev N g = |a| * Spec.stdDev N f := by
  unfold Spec.stdDev Spec.variance
  rw [sq_affine N hN f g a b h, mul_div_assoc, Real.sqrt_mul (sq_nonneg a), Real.sqrt_sq_eq_abs]

theorem nonempty_of_std {ι : Type} {N : Finset ι} {f : ι → ℝ} (h : Spec.stdDev N f ≠ 0) : N.Nonempty := by
  rw [Finset.nonempty_iff_ne_empty]
  rintro rfl
  exact h (by simp [Spec.stdDev, Spec.variance])

/-- C89: the normal variant does not change under `D ↦ a * D + b` for positive `a` (self values excepted), if no object has the
same value to all other training objects. -/
theorem C89_affine (F : Dists) {n : ℕ} (D D' : Fin n → Fin n → ℝ) (a b : ℝ) (ha : 0 < a)
    (hD : ∀ i j, i ≠ j → D' i j = a * D i j + b) (metric : String) (hm : Spec.IsMetric metric) (mn : ℤ)
    (test : Option (List ℤ)) (hsd : ∀ j, Spec.stdDev ((Spec.training n test).erase j) (fun c => D c j) ≠ 0) :
    gaussi F (.mat false n n D') metric 0 mn test none = gaussi F (.mat false n n D) metric 0 mn test none := by
  have hne : ∀ j, ((Spec.training n test).erase j).Nonempty := fun j => nonempty_of_std (hsd j)
  rw [gaussi_eq F D metric hm mn test hne, gaussi_eq F D' metric hm mn test hne]
  have hp : ∀ j x x', x' = a * x + b →
      Spec.normalProb F.phi ((Spec.training n test).erase j) (fun c => D' c j) x'
        = Spec.normalProb F.phi ((Spec.training n test).erase j) (fun c => D c j) x := by
    intro j x x' hx
    have hc : ∀ c ∈ (Spec.training n test).erase j, D' c j = a * D c j + b := fun c hc => hD c j (Finset.ne_of_mem_erase hc)
    unfold Spec.normalProb
    rw [mean_affine _ (hne j) (fun c => D c j) (fun c => D' c j) a b hc,
      std_affine _ (hne j) (fun c => D c j) (fun c => D' c j) a b hc, abs_of_pos ha, hx]
    unfold Spec.guard
    rw [if_neg (hsd j), if_neg (mul_ne_zero ha.ne' (hsd j))]
    congr 1
    have := hsd j
    field_simp
    ring
  congr 3
  funext i j
  unfold gaussM
  by_cases hij : i = j
  · simp [hij]
  · have hmm : min i j ≠ max i j := by simpa using hij
    rw [if_neg hij, if_neg hij, hp i _ _ (hD _ _ hmm), hp j _ _ (hD _ _ hmm)]

/-- C90: for a distribution function symmetric around zero the normal variant of negated distances, taken as similarities,
is one minus the distances. -/
theorem C90_duality (F : Dists) (hF : ∀ x, F.phi (-x) = 1 - F.phi x) {n : ℕ} (D : Fin n → Fin n → ℝ) (mn : ℤ)
    (test : Option (List ℤ)) (hne : ∀ j, ((Spec.training n test).erase j).Nonempty) :
    ∃ M : Fin n → Fin n → ℝ,
      gaussi F (.mat false n n D) "distance" 0 mn test none = .ok ⟨n, n, fun i j => .fin (M i j)⟩ ∧
      gaussi F (.mat false n n (fun i j => - D i j)) "similarity" 0 mn test none
        = .ok ⟨n, n, fun i j => .fin (1 - M i j)⟩ := by
  refine ⟨_, gaussi_eq F D _ (Or.inr rfl) mn test hne, ?_⟩
  rw [gaussi_eq F _ _ (Or.inl rfl) mn test hne]
  have hp : ∀ j x, Spec.normalProb F.phi ((Spec.training n test).erase j) (fun c => - D c j) (-x)
        = 1 - Spec.normalProb F.phi ((Spec.training n test).erase j) (fun c => D c j) x := by
    intro j x
    have hc : ∀ c ∈ (Spec.training n test).erase j, - D c j = (-1) * D c j + 0 := fun c _ => by ring
    unfold Spec.normalProb
    rw [mean_affine _ (hne j) (fun c => D c j) _ (-1) 0 hc, std_affine _ (hne j) (fun c => D c j) _ (-1) 0 hc, ← hF]
    congr 1
    rw [abs_neg, abs_one, one_mul]
    ring
  congr 3
  funext i j
  unfold gaussM
  by_cases hij : i = j
  · simp [hij, Spec.ownValue]
  · rw [if_neg hij, if_neg hij, hp, hp]
    simp [Spec.mutualProximity]

/-- C91: the Gamma variant does not change when all values are multiplied by the same positive number, if every object has at
least two different values to other training objects. -/
theorem C91_scale (F : Dists) {n : ℕ} (D : Fin n → Fin n → ℝ) (c : ℝ) (hc : 0 < c) (metric : String)
    (hm : Spec.IsMetric metric) (mn : ℤ) (test : Option (List ℤ)) (h2 : ∀ j, 2 ≤ ((Spec.training n test).erase j).card)
    (hmu : ∀ j, 0 < Spec.meanOver ((Spec.training n test).erase j) (fun c => D c j))
    (hva : ∀ j, Spec.sampleVariance ((Spec.training n test).erase j) (fun c => D c j) ≠ 0) :
    gammai F (.mat false n n (fun i j => c * D i j)) metric mn test = gammai F (.mat false n n D) metric mn test := by
  have hne : ∀ j, ((Spec.training n test).erase j).Nonempty := fun j => Finset.card_pos.mp (by have := h2 j; omega)
  have hmean : ∀ j, Spec.meanOver ((Spec.training n test).erase j) (fun i => c * D i j)
      = c * Spec.meanOver ((Spec.training n test).erase j) (fun i => D i j) := by
    intro j
    rw [mean_affine _ (hne j) (fun i => D i j) _ c 0 (fun i _ => by ring), add_zero]
  have hvar : ∀ j, Spec.sampleVariance ((Spec.training n test).erase j) (fun i => c * D i j)
      = c ^ 2 * Spec.sampleVariance ((Spec.training n test).erase j) (fun i => D i j) := by
    intro j
    unfold Spec.sampleVariance
    rw [sq_affine _ (hne j) (fun i => D i j) _ c 0 (fun i _ => by ring), mul_div_assoc]
  rw [gammai_eq F D metric hm mn test h2 hmu, gammai_eq F _ metric hm mn test h2
    (fun j => by rw [hmean]; exact mul_pos hc (hmu j))]
  have hp : ∀ j x, Spec.gammaProb F.gamma ((Spec.training n test).erase j) (fun i => c * D i j) (c * x)
      = Spec.gammaProb F.gamma ((Spec.training n test).erase j) (fun i => D i j) x := by
    intro j x
    unfold Spec.gammaProb
    rw [hmean, hvar]
    unfold Spec.guard
    rw [if_neg (hva j), if_neg (mul_ne_zero (pow_ne_zero 2 hc.ne') (hva j))]
    have h1 := hva j
    have h2 := (hmu j).ne'
    have hx : max (c * x) 0 = c * max x 0 := by
      rw [mul_max_of_nonneg _ _ hc.le, mul_zero]
    rw [hx]
    congr 1
    · field_simp
    · field_simp
  congr 2
  funext i j
  unfold gamM
  by_cases hij : i = j
  · simp [hij]
  · rw [if_neg hij, if_neg hij, hp i, hp j]

/-- C92: the secondary value of a pair depends on nothing but the primary value of the pair and the values of either object
to the other training objects. -/
theorem C92_held_out (F : Dists) {n : ℕ} (D D' : Fin n → Fin n → ℝ) (metric : String) (hm : Spec.IsMetric metric)
    (mn : ℤ) (test : Option (List ℤ)) :
    ∃ M M' G G' : Fin n → Fin n → XR ℝ, gaussi F (.mat false n n D) metric 0 mn test none = .ok ⟨n, n, M⟩
      ∧ gaussi F (.mat false n n D') metric 0 mn test none = .ok ⟨n, n, M'⟩
      ∧ gammai F (.mat false n n D) metric mn test = .ok ⟨n, G⟩
      ∧ gammai F (.mat false n n D') metric mn test = .ok ⟨n, G'⟩
      ∧ ∀ i j, D i j = D' i j → D j i = D' j i →
        (∀ c ∈ Spec.training n test, (c ≠ i → D c i = D' c i) ∧ (c ≠ j → D c j = D' c j)) →
        M i j = M' i j ∧ G i j = G' i j := by
  refine ⟨_, _, _, _, gaussi_dense F D metric hm mn test, gaussi_dense F D' metric hm mn test,
    gammai_dense F D metric hm mn test, gammai_dense F D' metric hm mn test, ?_⟩
  intro i j hij hji hT
  have hv : ∀ k, (∀ c ∈ Spec.training n test, c ≠ k → D c k = D' c k) →
      colVals D (LS.trainInd n test) k = colVals D' (LS.trainInd n test) k := by
    intro k hk
    unfold colVals
    refine List.map_congr_left fun c hc => ?_
    rw [List.mem_filter, ← List.mem_toFinset, LS.trainInd_toFinset] at hc
    exact hk c hc.1 (of_decide_eq_true hc.2)
  have hi := hv i (fun c hc => (hT c hc).1)
  have hj := hv j (fun c hc => (hT c hc).2)
  constructor
  · unfold gaussiDense
    simp only [fillUpper_eq, LS.mirror, hi, hj, hij, hji]
  · unfold gammaiDense
    simp only [fillUpper_eq, LS.mirror, hi, hj, hij, hji]

theorem mul_comm' (a b : XR ℝ) : XR.mul a b = XR.mul b a := by
  cases a <;> cases b <;> simp [XR.mul, mul_comm]

theorem gaussEntry_comm (F : Dists) (metric : String) (x : ℝ) (m s m' s' : XR ℝ) :
    gaussEntry F metric x m s m' s' = gaussEntry F metric x m' s' m s := by
  unfold gaussEntry
  rw [mul_comm', mul_comm' (normSf F x m s)]

theorem gamEntry_comm (F : Dists) (metric : String) (x x' : ℝ) (m s m' s' : XR ℝ) :
    gamEntry F metric x x' m s m' s' = gamEntry F metric x' x m' s' m s := by
  unfold gamEntry
  rw [mul_comm', mul_comm' (XR.sub _ (gamCdf F x m s))]

theorem nanmean_perm {l l' : List ℝ} (h : l.Perm l') : nanmean l = nanmean l' := by
  unfold nanmean
  rw [h.sum_eq, h.length_eq]
  by_cases h0 : l' = []
  · subst h0
    rw [if_pos h.eq_nil]
    simp
  · rw [if_neg h0, if_neg (fun h1 => h0 (by subst h1; exact h.symm.eq_nil))]

theorem nanvar_perm (d : ℕ) {l l' : List ℝ} (h : l.Perm l') : nanvar d l = nanvar d l' := by
  unfold nanvar
  rw [h.sum_eq, h.length_eq, (h.map _).sum_eq]

theorem colVals_perm {n : ℕ} (D : Fin n → Fin n → ℝ) (σ : Equiv.Perm (Fin n)) (test test' : Option (List ℤ))
    (hT : ∀ i, i ∈ Spec.training n test' ↔ σ i ∈ Spec.training n test) (j : Fin n) :
    (colVals (fun a b => D (σ a) (σ b)) (LS.trainInd n test') j).Perm (colVals D (LS.trainInd n test) (σ j)) := by
  have hp : ((LS.trainInd n test').map σ).Perm (LS.trainInd n test) := by
    rw [List.perm_ext_iff_of_nodup ((LS.trainInd_nodup n test').map σ.injective) (LS.trainInd_nodup n test)]
    intro a
    have hmem : ∀ t b, b ∈ LS.trainInd n t ↔ b ∈ Spec.training n t := fun t b => by
      rw [← LS.trainInd_toFinset, List.mem_toFinset]
    simp only [List.mem_map, hmem, hT]
    constructor
    · rintro ⟨b, hb, rfl⟩
      exact hb
    · intro ha
      exact ⟨σ.symm a, by simpa using ha, by simp⟩
  have h2 := (hp.filter (fun i => decide (i ≠ σ j))).map (fun i => D i (σ j))
  unfold colVals
  refine List.Perm.trans (List.Perm.of_eq ?_) h2
  rw [List.filter_map, List.map_map]
  congr 2
  funext i
  simp

/-- C93: renumbering the objects of a symmetric matrix renumbers the result of both variants in the same way. -/
theorem C93_relabel (F : Dists) {n : ℕ} (D : Fin n → Fin n → ℝ) (hD : ∀ i j, D i j = D j i) (σ : Equiv.Perm (Fin n))
    (metric : String) (hm : Spec.IsMetric metric) (mn : ℤ) (test test' : Option (List ℤ))
    (hT : ∀ i, i ∈ Spec.training n test' ↔ σ i ∈ Spec.training n test) :
    ∃ M G : Fin n → Fin n → XR ℝ, gaussi F (.mat false n n D) metric 0 mn test none = .ok ⟨n, n, M⟩
      ∧ gaussi F (.mat false n n (fun a b => D (σ a) (σ b))) metric 0 mn test' none
          = .ok ⟨n, n, fun a b => M (σ a) (σ b)⟩
      ∧ gammai F (.mat false n n D) metric mn test = .ok ⟨n, G⟩
      ∧ gammai F (.mat false n n (fun a b => D (σ a) (σ b))) metric mn test' = .ok ⟨n, fun a b => G (σ a) (σ b)⟩ := by
  have key : ∀ (v : XR ℝ) (f g : Fin n → Fin n → XR ℝ), (∀ i j, f i j = g (σ i) (σ j)) → (∀ i j, g i j = g j i) →
      LS.mirror v f = fun a b => LS.mirror v g (σ a) (σ b) := by
    intro v f g hfg hg
    funext a b
    unfold LS.mirror
    by_cases hab : a = b
    · simp [hab]
    · have hab' : σ a ≠ σ b := fun h => hab (σ.injective h)
      rw [if_neg hab, if_neg hab', hfg, hfg, hg (σ b) (σ a), ite_self, ite_self]
  refine ⟨_, _, gaussi_dense F D metric hm mn test, ?_, gammai_dense F D metric hm mn test, ?_⟩
  · rw [gaussi_dense F _ metric hm mn test']
    congr 3
    unfold gaussiDense
    simp only [fillUpper_eq]
    refine key _ _ _ ?_ ?_
    · intro i j
      rw [nanmean_perm (colVals_perm D σ test test' hT i), nanmean_perm (colVals_perm D σ test test' hT j),
        nanvar_perm 0 (colVals_perm D σ test test' hT i), nanvar_perm 0 (colVals_perm D σ test test' hT j)]
    · intro i j
      rw [gaussEntry_comm, hD i j]
  · rw [gammai_dense F _ metric hm mn test']
    congr 2
    unfold gammaiDense
    simp only [fillUpper_eq]
    refine key _ _ _ ?_ ?_
    · intro i j
      rw [nanmean_perm (colVals_perm D σ test test' hT i), nanmean_perm (colVals_perm D σ test test' hT j),
        nanvar_perm 1 (colVals_perm D σ test test' hT i), nanvar_perm 1 (colVals_perm D σ test test' hT j)]
    · intro i j
      rw [gamEntry_comm]

theorem var3_ne (j : Fin 3) : Spec.sampleVariance ((Spec.training 3 none).erase j) (fun c => line3 c j) ≠ 0 ∧
    Spec.variance ((Spec.training 3 none).erase j) (fun c => line3 c j) ≠ 0 := by
  rw [training3]
  have key : ∑ c ∈ Finset.univ.erase j, (line3 c j - Spec.meanOver (Finset.univ.erase j) (fun c => line3 c j)) ^ 2 ≠ 0 := by
    fin_cases j
    · show ∑ c ∈ Finset.univ.erase (0 : Fin 3), (line3 c 0 - Spec.meanOver (Finset.univ.erase 0) (fun c => line3 c 0)) ^ 2 ≠ 0
      rw [(mean3 _).1, erase3.1]
      rw [Finset.sum_pair (by decide)]
      norm_num [line3_vals]
    · show ∑ c ∈ Finset.univ.erase (1 : Fin 3), (line3 c 1 - Spec.meanOver (Finset.univ.erase 1) (fun c => line3 c 1)) ^ 2 ≠ 0
      rw [(mean3 _).2.1, erase3.2.1]
      rw [Finset.sum_pair (by decide)]
      norm_num [line3_vals]
    · show ∑ c ∈ Finset.univ.erase (2 : Fin 3), (line3 c 2 - Spec.meanOver (Finset.univ.erase 2) (fun c => line3 c 2)) ^ 2 ≠ 0
      rw [(mean3 _).2.2, erase3.2.2]
      rw [Finset.sum_pair (by decide)]
      norm_num [line3_vals]
  have hc : (Finset.univ.erase j).card = 2 := by fin_cases j <;> decide
  unfold Spec.sampleVariance Spec.variance
  rw [hc]
  exact ⟨div_ne_zero key (by norm_num), div_ne_zero key (by norm_num)⟩

theorem std3_ne (j : Fin 3) : Spec.stdDev ((Spec.training 3 none).erase j) (fun c => line3 c j) ≠ 0 :=
  (Real.sqrt_ne_zero (variance_nonneg _ _)).mpr (var3_ne j).2

example : gaussi simple (.mat false 3 3 (fun i j => 2 * line3 i j + 5)) "distance" 0 30 none none
    = gaussi simple (.mat false 3 3 line3) "distance" 0 30 none none :=
  C89_affine simple line3 _ 2 5 (by norm_num) (fun _ _ _ => rfl) "distance" (Or.inr rfl) 30 none std3_ne

/-- A symmetric distribution function. -/
noncomputable def symmetric : Dists :=
  { simple with
    phi := fun x => if x < 0 then 0 else if 0 < x then 1 else 1 / 2
    phi_mono := by
      intro x y h
      simp only
      split_ifs <;> norm_num <;> linarith
    phi_nonneg := by intro x; split_ifs <;> norm_num
    phi_le_one := by intro x; split_ifs <;> norm_num }

example : (∀ x, symmetric.phi (-x) = 1 - symmetric.phi x) ∧ ∀ j, ((Spec.training 3 none).erase j).Nonempty := by
  refine ⟨fun x => ?_, training3_ne⟩
  show (if -x < 0 then (0 : ℝ) else if 0 < -x then 1 else 1 / 2) = 1 - (if x < 0 then 0 else if 0 < x then 1 else 1 / 2)
  rcases lt_trichotomy x 0 with h | h | h
  · simp [h, h.not_gt]
  · simp [h]; norm_num
  · simp [h, h.not_gt]

example : gammai simple (.mat false 3 3 (fun i j => 2 * line3 i j)) "distance" 30 none
    = gammai simple (.mat false 3 3 line3) "distance" 30 none :=
  C91_scale simple line3 2 (by norm_num) "distance" (Or.inr rfl) 30 none (fun j => (training3_card j).ge) mean3_pos
    (fun j => (var3_ne j).1)

example : ∀ i : Fin 3, i ∈ Spec.training 3 (some [0]) ↔ Equiv.swap 0 2 i ∈ Spec.training 3 (some [2]) := by
  intro i
  fin_cases i <;> decide

end HubToolbox.MPPar
