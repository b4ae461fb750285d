import Verif.Relations.Locality

/-!
# Duplicates in Local Scaling and NICDM

C68 (exact form) and C219: what `local_scaling` and `nicdm` return for *every* symmetric matrix of finite nonnegative
distances, including data with many copies of one object. An object is crowded if at least `k` other training objects have
distance zero to it. Local Scaling returns `nan` exactly for pairs of distance zero of which one object is crowded, and every
other value is unaffected. For NICDM a single crowded object turns all values of the whole matrix into zero or `nan`.
-/

set_option autoImplicit false

namespace HubToolbox.Spec

/-- At least `k` of the objects in `S` have distance zero. -/
def Crowded {ι : Type} (S : Finset ι) (d : ι → ℝ) (k : ℕ) : Prop := ∃ T ⊆ S, T.card = k ∧ ∀ j ∈ T, d j = 0

theorem crowded_iff_kth {ι : Type} {S : Finset ι} {d : ι → ℝ} (hd : ∀ j, 0 ≤ d j) {k : ℕ} {ρ : ℝ}
    (h : IsKthSmallest S d k ρ) : Crowded S d k ↔ ρ = 0 := by
  obtain ⟨j0, hj0, e0⟩ := h.attained
  constructor
  · rintro ⟨T, hT, hc, h0⟩
    by_contra hne
    have hpos : 0 < ρ := lt_of_le_of_ne (e0 ▸ hd j0) (Ne.symm hne)
    have : T ⊆ S.filter (fun j => d j < ρ) := fun j hj => Finset.mem_filter.2 ⟨hT hj, by rw [h0 j hj]; exact hpos⟩
    have := Finset.card_le_card this
    have := h.below
    omega
  · rintro rfl
    obtain ⟨T, hT, hc⟩ := Finset.exists_subset_card_eq h.upto
    refine ⟨T, hT.trans (Finset.filter_subset _ _), hc, fun j hj => ?_⟩
    exact le_antisymm (Finset.mem_filter.1 (hT hj)).2 (hd j)

theorem crowded_iff_mean {ι : Type} [DecidableEq ι] {S : Finset ι} {d : ι → ℝ} (hd : ∀ j, 0 ≤ d j) {k : ℕ} (hk : 1 ≤ k)
    {N : Finset ι} (h : IsNearest S d k N) : Crowded S d k ↔ meanOver N d = 0 := by
  have hc : (N.card : ℝ) ≠ 0 := by
    rw [h.card]
    exact_mod_cast (by omega : k ≠ 0)
  unfold meanOver
  rw [div_eq_zero_iff, or_iff_left hc, Finset.sum_eq_zero_iff_of_nonneg (fun j _ => hd j)]
  constructor
  · rintro ⟨T, hT, hTc, h0⟩ a ha
    by_cases haT : a ∈ T
    · exact h0 a haT
    · have : ∃ b ∈ T, b ∉ N := by
        by_contra hcon
        push Not at hcon
        have h1 : T ⊆ N.erase a := fun b hb => Finset.mem_erase.2 ⟨fun e => haT (e ▸ hb), hcon b hb⟩
        have h2 := Finset.card_le_card h1
        have h3 := Finset.card_erase_lt_of_mem ha
        rw [h.card] at h3
        omega
      obtain ⟨b, hb, hbN⟩ := this
      exact le_antisymm ((h.best a ha b (hT hb) hbN).trans (h0 b hb).le) (hd a)
  · intro h0
    exact ⟨N, h.sub, h.card, h0⟩

end HubToolbox.Spec

namespace HubToolbox.LS

open HubToolbox

/-- **C68** (exact). For every symmetric matrix of finite nonnegative distances and every `k` for which each object has `k`
other training objects, `local_scaling` succeeds. The value of two different objects is the local scaling formula if neither
is crowded, one if one of them is crowded and their distance is positive, and `nan` if one of them is crowded and their
distance is zero. -/
theorem C68_exact (w : World) {n : ℕ} (x : Fin n → Fin n → ℝ) (hsym : ∀ i j, x i j = x j i) (hnn : ∀ i j, 0 ≤ x i j)
    (k : ℕ) (hk : 1 ≤ k) (test : Option (List ℤ)) (nJobs : ℤ) (hj : nJobs = -1 ∨ 1 ≤ nJobs) (r : Fin n → ℝ)
    (hr : ∀ i, Spec.IsKthSmallest ((Spec.training n test).erase i) (x i) k (r i)) (hn : 0 < n) :
    ∃ M, localScaling w (.mat false n n (toXR x)) k "distance" test nJobs = .ok ⟨n, M⟩ ∧ (∀ i, M i i = .fin 0) ∧
      ∀ i j, i ≠ j →
        (¬ Spec.Crowded ((Spec.training n test).erase i) (x i) k → ¬ Spec.Crowded ((Spec.training n test).erase j) (x j) k →
          M i j = .fin (Spec.localScaling (x i j) (r i) (r j))) ∧
        (Spec.Crowded ((Spec.training n test).erase i) (x i) k ∨ Spec.Crowded ((Spec.training n test).erase j) (x j) k →
          M i j = if x i j = 0 then .nan else .fin 1) := by
  have hcard : ∀ i, k ≤ ((Spec.training n test).erase i).card := fun i =>
    (hr i).upto.trans (Finset.card_le_card (Finset.filter_subset _ _))
  have hlen : k ≤ (trainInd n test).length := (hcard ⟨0, hn⟩).trans (training_card_le n test _)
  have hcr := fun i => Spec.crowded_iff_kth (hnn i) (hr i)
  have hr0 : ∀ i, 0 ≤ r i := fun i => by
    obtain ⟨j, _, e⟩ := (hr i).attained
    rw [← e]
    exact hnn i j
  rw [localScaling_dense w _ _ _ (Or.inl rfl), core_ok w _ _ _ _ _ (jobs_pos w nJobs hj) ⟨k - 1, by omega⟩]
  · refine ⟨_, rfl, ?_, ?_⟩
    · intro i
      simp [result, mirror, selfValue]
    · intro i j hij
      have hrad : ∀ i, rankVal (cols (Np.fillDiagonal (toXR x) (exclude "distance")) (trainInd n test) i)
          ⟨k - 1, by omega⟩ = .fin (r i) := by
        intro i
        obtain ⟨ρ, h1, h2⟩ := rankVal_kthSmallest x test i k hk (hcard i) ⟨k - 1, by omega⟩ rfl
        rw [kthSmallest_unique (hr i) h2]
        exact h1
      have hM : ∀ c : XR ℝ, entry "distance" (.fin (x i j)) (.fin (r i)) (.fin (r j)) = c →
          entry "distance" (.fin (x i j)) (.fin (r j)) (.fin (r i)) = c →
          result (toXR x) "distance" (trainInd n test) ⟨k - 1, by omega⟩ i j = c := by
        intro c h1 h2
        unfold result mirror
        simp only [hrad, toXR]
        rw [if_neg hij]
        by_cases h' : i < j
        · rw [if_pos h', h1]
        · rw [if_neg h', hsym j i, h2]
      rw [hcr i, hcr j]
      constructor
      · intro hi hj
        have hi := lt_of_le_of_ne (hr0 i) (Ne.symm hi)
        have hj := lt_of_le_of_ne (hr0 j) (Ne.symm hj)
        refine hM _ (entry_distance _ _ _ hi hj) ?_
        rw [entry_distance _ _ _ hj hi]
        unfold Spec.localScaling
        rw [mul_comm (r j)]
      · intro h0
        have h0 : r i * r j = 0 := mul_eq_zero.2 h0
        exact hM _ (entry_distance_zero _ _ _ h0) (entry_distance_zero _ _ _ (by rw [mul_comm]; exact h0))
  · unfold kthOf
    rw [if_neg (by decide)]
    exact wrap_pred hk hlen

/-- **C68** (exact): `local_scaling` contains `nan` exactly if two objects have distance zero and one of them is crowded. -/
theorem C68_nan_iff (w : World) {n : ℕ} (x : Fin n → Fin n → ℝ) (hsym : ∀ i j, x i j = x j i) (hnn : ∀ i j, 0 ≤ x i j)
    (k : ℕ) (hk : 1 ≤ k) (test : Option (List ℤ)) (nJobs : ℤ) (hj : nJobs = -1 ∨ 1 ≤ nJobs)
    (hc : ∀ i, k ≤ ((Spec.training n test).erase i).card) (hn : 0 < n) :
    ∃ M, localScaling w (.mat false n n (toXR x)) k "distance" test nJobs = .ok ⟨n, M⟩ ∧
      ∀ i j, M i j = .nan ↔ i ≠ j ∧ x i j = 0 ∧
        (Spec.Crowded ((Spec.training n test).erase i) (x i) k ∨ Spec.Crowded ((Spec.training n test).erase j) (x j) k) := by
  obtain ⟨r, hr⟩ := C28_radii_exist x k hk test hc
  obtain ⟨M, h, hd, hM⟩ := C68_exact w x hsym hnn k hk test nJobs hj r hr hn
  refine ⟨M, h, fun i j => ?_⟩
  by_cases hij : i = j
  · subst hij
    rw [hd]
    simp
  obtain ⟨h1, h2⟩ := hM i j hij
  by_cases hcr : Spec.Crowded ((Spec.training n test).erase i) (x i) k ∨ Spec.Crowded ((Spec.training n test).erase j) (x j) k
  · rw [h2 hcr]
    by_cases h0 : x i j = 0
    · simp [h0, hij, hcr]
    · simp [h0]
  · rw [h1 (fun h => hcr (Or.inl h)) (fun h => hcr (Or.inr h))]
    simp [hcr]

theorem log_fin_nonneg {r : ℝ} (h : 0 ≤ r) : XR.log (.fin r) = if r = 0 then .ninf else .fin (Real.log r) := by
  simp [XR.log, h.not_gt]

theorem sum_log_ninf {n : ℕ} (r : Fin n → ℝ) (hr : ∀ i, 0 ≤ r i) (i0 : Fin n) (h0 : r i0 = 0) :
    XR.sum (fun i => XR.log (.fin (r i))) = .ninf := by
  unfold XR.sum
  have key : ∀ (l : List (Fin n)) (a : XR ℝ), (a = .ninf ∨ ∃ y, a = .fin y) → (a = .ninf ∨ i0 ∈ l) →
      l.foldl (fun (acc : XR ℝ) (c : Fin n) => XR.add acc (XR.log (.fin (r c)))) a = .ninf := by
    intro l
    induction l with
    | nil =>
      intro a _ h
      rcases h with h | h
      · exact h
      · simp at h
    | cons c l ih =>
      intro a ha h
      rw [List.foldl_cons, log_fin_nonneg (hr c)]
      apply ih
      · rcases ha with rfl | ⟨y, rfl⟩ <;> split_ifs <;> simp [XR.add]
      · rcases h with rfl | h
        · left
          split_ifs <;> rfl
        · rcases List.mem_cons.1 h with rfl | h
          · left
            rw [if_pos h0]
            rcases ha with rfl | ⟨y, rfl⟩ <;> rfl
          · exact Or.inr h
  exact key _ _ (Or.inr ⟨0, rfl⟩) (Or.inr (List.mem_finRange i0))

theorem geomean_zero {n : ℕ} (r : Fin n → ℝ) (hr : ∀ i, 0 ≤ r i) (i0 : Fin n) (h0 : r i0 = 0) :
    geomean (fun i => (.fin (r i) : XR ℝ)) = .fin 0 := by
  unfold geomean
  rw [sum_log_ninf r hr i0 h0]
  simp [XR.div, XR.exp]

theorem nicdmEntry_zero (d ri rj : ℝ) (hi : 0 ≤ ri) (hj : 0 ≤ rj) :
    nicdmEntry (.fin 0) (.fin d) (.fin ri) (.fin rj) = if ri = 0 ∨ rj = 0 then .nan else .fin 0 := by
  unfold nicdmEntry
  have h := mul_nonneg hi hj
  simp only [XR.mul, XR.sqrt, h.not_gt, if_false, XR.div, zero_mul, zero_div, XR.infMul, Real.sqrt_eq_zero h, mul_eq_zero]
  simp

/-- **C219** (NICDM) is violated: if any object is crowded, that is at least `k` other training objects have distance zero to
it, then all information is lost. Every value of the matrix is zero, or `nan` if one of the two objects is crowded,
whatever the distances of the objects are. -/
theorem C219_nicdm_violated (w : World) {n : ℕ} (x : Fin n → Fin n → ℝ) (hnn : ∀ i j, 0 ≤ x i j)
    (k : ℕ) (hk : 1 ≤ k) (test : Option (List ℤ)) (nJobs : ℤ)
    (hc : ∀ i, k ≤ ((Spec.training n test).erase i).card) (i0 : Fin n)
    (h0 : Spec.Crowded ((Spec.training n test).erase i0) (x i0) k) :
    ∃ M, nicdm w (.mat false n n (toXR x)) k "distance" test nJobs = .ok ⟨n, M⟩ ∧ (∀ i, M i i = .fin 0) ∧
      ∀ i j, i ≠ j →
        (Spec.Crowded ((Spec.training n test).erase i) (x i) k ∨ Spec.Crowded ((Spec.training n test).erase j) (x j) k →
          M i j = .nan) ∧
        (¬ Spec.Crowded ((Spec.training n test).erase i) (x i) k → ¬ Spec.Crowded ((Spec.training n test).erase j) (x j) k →
          M i j = .fin 0) := by
  have hex : ∀ i, ∃ N, Spec.IsNearest ((Spec.training n test).erase i) (x i) k N := fun i => C32_nearest_exist _ _ k (hc i)
  choose N hN using hex
  have hcr := fun i => Spec.crowded_iff_mean (hnn i) hk (hN i)
  have hr0 : ∀ i, 0 ≤ Spec.meanOver (N i) (x i) := fun i =>
    div_nonneg (Finset.sum_nonneg fun j _ => hnn i j) (Nat.cast_nonneg _)
  have hlen : k ≤ (trainInd n test).length := (hc i0).trans (training_card_le n test _)
  have hrad : radii (toXR x) (trainInd n test) k hlen = fun i => .fin (Spec.meanOver (N i) (x i)) := by
    funext i
    exact meanRank_nearest x test i k hk (hc i) hlen (N i) (hN i)
  rw [nicdm_dense, nicdmCore_ok w _ _ _ _ hlen]
  have hM : ∀ i j, i ≠ j → nicdmResult (toXR x) (trainInd n test) k hlen i j =
      if Spec.meanOver (N i) (x i) = 0 ∨ Spec.meanOver (N j) (x j) = 0 then .nan else .fin 0 := by
    intro i j hij
    unfold nicdmResult mirror
    rw [hrad, geomean_zero _ hr0 i0 ((hcr i0).1 h0)]
    simp only [toXR, nicdmEntry_zero _ _ _ (hr0 _) (hr0 _)]
    rw [if_neg hij]
    by_cases h' : i < j
    · rw [if_pos h']
    · rw [if_neg h']
      exact if_congr or_comm rfl rfl
  refine ⟨_, rfl, ?_, ?_⟩
  · intro i
    simp [nicdmResult, mirror]
  · intro i j hij
    rw [hM i j hij, hcr i, hcr j]
    constructor
    · intro h
      rw [if_pos h]
    · intro h1 h2
      rw [if_neg (not_or.2 ⟨h1, h2⟩)]

/-- **C219** (NICDM), the part which holds: without crowded objects every value is the NICDM formula, a finite number which
is positive for positive distances. -/
theorem C219_nicdm_partial (w : World) {n : ℕ} (x : Fin n → Fin n → ℝ) (hsym : ∀ i j, x i j = x j i) (hnn : ∀ i j, 0 ≤ x i j)
    (k : ℕ) (hk : 1 ≤ k) (test : Option (List ℤ)) (nJobs : ℤ)
    (hc : ∀ i, k ≤ ((Spec.training n test).erase i).card) (hn : 0 < n)
    (h0 : ∀ i, ¬ Spec.Crowded ((Spec.training n test).erase i) (x i) k) :
    ∃ M : Fin n → Fin n → ℝ, nicdm w (.mat false n n (toXR x)) k "distance" test nJobs = .ok ⟨n, toXR M⟩ ∧
      ∀ i j, i ≠ j → 0 < x i j → 0 < M i j := by
  have hex : ∀ i, ∃ N, Spec.IsNearest ((Spec.training n test).erase i) (x i) k N := fun i => C32_nearest_exist _ _ k (hc i)
  choose N hN using hex
  have hpos : ∀ i, 0 < Spec.meanOver (N i) (x i) := fun i =>
    lt_of_le_of_ne (div_nonneg (Finset.sum_nonneg fun j _ => hnn i j) (Nat.cast_nonneg _))
      (fun h => h0 i ((Spec.crowded_iff_mean (hnn i) hk (hN i)).2 h.symm))
  obtain ⟨M, h, _, _, hM0, hM⟩ := C32_valid w x hsym hnn k hk test nJobs N hN hpos hn
  refine ⟨M, h, fun i j hij hx => lt_of_le_of_ne (hM0 i j) ?_⟩
  intro e
  exact hx.ne' ((hM i j hij).1 e.symm)

/-- Two copies of one object, and two other objects, on a line: positions 0, 0, 1, 3. -/
def copies4 : Fin 4 → Fin 4 → ℝ := ![![0, 0, 1, 3], ![0, 0, 1, 3], ![1, 1, 0, 2], ![3, 3, 2, 0]]

theorem copies4_symm (i j : Fin 4) : copies4 i j = copies4 j i := by
  fin_cases i <;> fin_cases j <;> rfl

theorem copies4_nonneg (i j : Fin 4) : 0 ≤ copies4 i j := by
  fin_cases i <;> fin_cases j <;> simp [copies4]

theorem copies4_crowded : Spec.Crowded ((Spec.training 4 none).erase 0) (copies4 0) 1 := by
  refine ⟨{1}, by simp [Spec.training], rfl, ?_⟩
  intro j hj
  rw [Finset.mem_singleton.1 hj]
  rfl

theorem copies4_card (i : Fin 4) : 1 ≤ ((Spec.training 4 none).erase i).card := by
  rw [show Spec.training 4 none = Finset.univ by simp [Spec.training], Finset.card_erase_of_mem (Finset.mem_univ i)]
  simp

theorem copies4_free {i : Fin 4} (hi : 2 ≤ i) : ¬ Spec.Crowded ((Spec.training 4 none).erase i) (copies4 i) 1 := by
  rintro ⟨T, hT, hc, h⟩
  obtain ⟨j, rfl⟩ := Finset.card_eq_one.1 hc
  have h1 := h j (Finset.mem_singleton_self j)
  have h2 : j ≠ i := Finset.ne_of_mem_erase (hT (Finset.mem_singleton_self j))
  fin_cases i <;> fin_cases j <;> first | (exact absurd hi (by decide)) | (exact absurd rfl h2) | (norm_num [copies4] at h1)

/-- Two copies of one object are enough for `k = 1`: the NICDM of the two remaining objects, which are no copies of
anything, is zero although their distance is two. Local Scaling of the same pair is a positive number. -/
example (w : World) : (∃ M, nicdm w (.mat false 4 4 (toXR copies4)) 1 "distance" none 1 = .ok ⟨4, M⟩ ∧
      M 2 3 = .fin 0 ∧ M 0 3 = .nan) ∧
    (∃ M, localScaling w (.mat false 4 4 (toXR copies4)) (1 : ℕ) "distance" none 1 = .ok ⟨4, M⟩ ∧ M 0 1 = .nan ∧ M 2 3 ≠ .nan ∧
      M 0 3 ≠ .nan) := by
  obtain ⟨M, h, _, hM⟩ := C219_nicdm_violated w copies4 copies4_nonneg 1 le_rfl none 1 copies4_card 0 copies4_crowded
  obtain ⟨L, h', hL⟩ := C68_nan_iff w copies4 copies4_symm copies4_nonneg 1 le_rfl none 1 (Or.inr le_rfl) copies4_card (by norm_num)
  refine ⟨⟨M, h, (hM 2 3 (by decide)).2 (copies4_free (by decide)) (copies4_free (by decide)),
    (hM 0 3 (by decide)).1 (Or.inl copies4_crowded)⟩, L, h', (hL 0 1).2 ⟨by decide, rfl, Or.inl copies4_crowded⟩, ?_, ?_⟩
  · rw [Ne, hL]
    rintro ⟨_, h, _⟩
    exact two_ne_zero (α := ℝ) h
  · rw [Ne, hL]
    rintro ⟨_, h, _⟩
    exact three_ne_zero (α := ℝ) h

end HubToolbox.LS
