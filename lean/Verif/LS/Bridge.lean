import Verif.LS.Lemmas

/-!
# From order statistics of floats to the specification
-/

set_option autoImplicit false

namespace HubToolbox.LS

open HubToolbox

theorem wrap_pred {m k : ℕ} (h1 : 1 ≤ k) (h2 : k ≤ m) :
    Np.wrap m ((k : ℤ) - 1) = some ⟨k - 1, by omega⟩ := by
  rw [Np.wrap_of_nonneg (by omega) (by omega)]
  congr 1
  apply Fin.ext
  simp

theorem wrap_sub {n k : ℕ} (h1 : 1 ≤ k) (h2 : k ≤ n) :
    Np.wrap n ((n : ℤ) - k) = some ⟨n - k, by omega⟩ := by
  rw [Np.wrap_of_nonneg (by omega) (by omega)]
  congr 1
  apply Fin.ext
  simp

theorem jobs_pos (w : World) (nJobs : ℤ) (h : nJobs = -1 ∨ 1 ≤ nJobs) : 1 ≤ jobs w nJobs := by
  unfold jobs
  have := w.cpu_pos
  split <;> omega

/-- A real matrix as an array of floats. -/
def toXR {n m : ℕ} (x : Fin n → Fin m → ℝ) : Fin n → Fin m → XR ℝ := fun i j => .fin (x i j)

theorem cols_count {n : ℕ} (D : Fin n → Fin n → XR ℝ) (train : List (Fin n)) (hl : train.Nodup) (i : Fin n)
    (p : XR ℝ → Prop) [DecidablePred p] :
    (Finset.univ.filter (fun c => p (cols D train i c))).card =
      (train.toFinset.filter (fun j => p (D i j))).card :=
  card_filter_get train hl (fun j => p (D i j))

theorem fill_lt_count {n : ℕ} (x : Fin n → Fin n → ℝ) (S : Finset (Fin n)) (i : Fin n) (ρ : ℝ) :
    (S.filter (fun j => Np.fillDiagonal (toXR x) .pinf i j < .fin ρ)) = ((S.erase i).filter (fun j => x i j < ρ)) := by
  ext j
  simp only [Finset.mem_filter, Finset.mem_erase]
  by_cases h : i = j
  · subst h
    simp [Np.fillDiagonal, fin_not_pinf_lt]
  · have : i.val ≠ j.val := fun h' => h (Fin.ext h')
    simp [Np.fillDiagonal, toXR, this, Ne.symm h]
where
  fin_not_pinf_lt : ∀ {ρ : ℝ}, ¬ ((.pinf : XR ℝ) < .fin ρ) := by
    intro ρ; rw [not_lt]; simp

theorem fill_le_count {n : ℕ} (x : Fin n → Fin n → ℝ) (S : Finset (Fin n)) (i : Fin n) (ρ : ℝ) :
    (S.filter (fun j => Np.fillDiagonal (toXR x) .pinf i j ≤ .fin ρ)) = ((S.erase i).filter (fun j => x i j ≤ ρ)) := by
  ext j
  simp only [Finset.mem_filter, Finset.mem_erase]
  by_cases h : i = j
  · subst h
    simp [Np.fillDiagonal]
  · have : i.val ≠ j.val := fun h' => h (Fin.ext h')
    simp [Np.fillDiagonal, toXR, this, Ne.symm h]

/-- Distances: the value at position `k - 1` is the `k`-th smallest distance to another training point. -/
theorem rank_iff_kthSmallest {n : ℕ} (x : Fin n → Fin n → ℝ) (test : Option (List ℤ)) (i : Fin n) (k : ℕ)
    (hk : 1 ≤ k) (ρ : ℝ) :
    IsRank (cols (Np.fillDiagonal (toXR x) .pinf) (trainInd n test) i) (k - 1) (.fin ρ) ↔
      Spec.IsKthSmallest ((Spec.training n test).erase i) (x i) k ρ := by
  have hlt := cols_count (Np.fillDiagonal (toXR x) .pinf) (trainInd n test) (trainInd_nodup n test) i
    (fun v => v < .fin ρ)
  have hle := cols_count (Np.fillDiagonal (toXR x) .pinf) (trainInd n test) (trainInd_nodup n test) i
    (fun v => v ≤ .fin ρ)
  rw [trainInd_toFinset, fill_lt_count] at hlt
  rw [trainInd_toFinset, fill_le_count] at hle
  constructor
  · rintro ⟨⟨c, hc⟩, h1, h2⟩
    refine ⟨⟨(trainInd n test).get c, ?_, ?_⟩, by omega, by omega⟩
    · rw [Finset.mem_erase]
      constructor
      · intro h
        simp [cols, Np.fillDiagonal, ← h] at hc
      · rw [← trainInd_toFinset, List.mem_toFinset]
        exact List.get_mem _ _
    · unfold cols Np.fillDiagonal at hc
      split at hc
      · exact absurd hc (by simp)
      · simpa [toXR] using hc
  · rintro ⟨⟨j, hj, hx⟩, h1, h2⟩
    rw [Finset.mem_erase, ← trainInd_toFinset, List.mem_toFinset] at hj
    obtain ⟨c, hc⟩ := List.get_of_mem hj.2
    refine ⟨⟨c, ?_⟩, by omega, by omega⟩
    have : i.val ≠ j.val := fun h' => hj.1 (Fin.ext h').symm
    change Np.fillDiagonal (toXR x) .pinf i ((trainInd n test).get c) = _
    rw [hc]
    simp [Np.fillDiagonal, this, toXR, hx]

/-- The radius exists and is finite as long as there are enough other training points. -/
theorem rankVal_kthSmallest {n : ℕ} (x : Fin n → Fin n → ℝ) (test : Option (List ℤ)) (i : Fin n) (k : ℕ)
    (hk : 1 ≤ k) (hc : k ≤ ((Spec.training n test).erase i).card) (t : Fin (trainInd n test).length)
    (ht : t.val = k - 1) :
    ∃ ρ, rankVal (cols (Np.fillDiagonal (toXR x) .pinf) (trainInd n test) i) t = .fin ρ ∧
      Spec.IsKthSmallest ((Spec.training n test).erase i) (x i) k ρ := by
  have hr := rankVal_spec (cols (Np.fillDiagonal (toXR x) .pinf) (trainInd n test) i) t
  rw [ht] at hr
  cases hv : rankVal (cols (Np.fillDiagonal (toXR x) .pinf) (trainInd n test) i) t with
  | fin ρ =>
    rw [hv] at hr
    exact ⟨ρ, rfl, (rank_iff_kthSmallest x test i k hk ρ).1 hr⟩
  | pinf =>
    exfalso
    rw [hv] at hr
    have hlt := cols_count (Np.fillDiagonal (toXR x) .pinf) (trainInd n test) (trainInd_nodup n test) i
      (fun v => v < .pinf)
    have hsub : (Spec.training n test).erase i ⊆
        (trainInd n test).toFinset.filter (fun j => Np.fillDiagonal (toXR x) .pinf i j < .pinf) := by
      intro j hj
      rw [Finset.mem_erase] at hj
      have : i.val ≠ j.val := fun h' => hj.1 (Fin.ext h').symm
      rw [Finset.mem_filter, trainInd_toFinset]
      exact ⟨hj.2, by simp [Np.fillDiagonal, this, toXR]⟩
    have := Finset.card_le_card hsub
    have := hr.below
    omega
  | ninf =>
    exfalso
    rw [hv] at hr
    obtain ⟨c, hc⟩ := hr.attained
    unfold cols Np.fillDiagonal toXR at hc
    split at hc <;> simp at hc
  | nan =>
    exfalso
    rw [hv] at hr
    obtain ⟨c, hc⟩ := hr.attained
    unfold cols Np.fillDiagonal toXR at hc
    split at hc <;> simp at hc

theorem kthSmallest_unique {ι : Type} {S : Finset ι} {f : ι → ℝ} {k : ℕ} {ρ ρ' : ℝ}
    (h : Spec.IsKthSmallest S f k ρ) (h' : Spec.IsKthSmallest S f k ρ') : ρ = ρ' := by
  have key : ∀ {ρ ρ' : ℝ}, Spec.IsKthSmallest S f k ρ → Spec.IsKthSmallest S f k ρ' → ¬ ρ < ρ' := by
    intro ρ ρ' h h' hlt
    have : (S.filter (fun c => f c ≤ ρ)).card ≤ (S.filter (fun c => f c < ρ')).card := by
      apply Finset.card_le_card
      intro c
      simp only [Finset.mem_filter]
      exact fun hc => ⟨hc.1, hc.2.trans_lt hlt⟩
    have h1 := h.upto
    have h2 := h'.below
    omega
  exact le_antisymm (not_lt.1 (key h' h)) (not_lt.1 (key h h'))

/-- Similarities: the value at position `n - k` is the `k`-th largest similarity to another point. -/
theorem rankVal_kthLargest {n : ℕ} (x : Fin n → Fin n → ℝ) (i : Fin n) (k : ℕ)
    (hk : 1 ≤ k) (hc : k < n) (t : Fin (trainInd n none).length) (ht : t.val = n - k) :
    ∃ ρ, rankVal (cols (Np.fillDiagonal (toXR x) .ninf) (trainInd n none) i) t = .fin ρ ∧
      Spec.IsKthLargest (Finset.univ.erase i) (x i) k ρ := by
  have hr := rankVal_spec (cols (Np.fillDiagonal (toXR x) .ninf) (trainInd n none) i) t
  rw [ht] at hr
  have htr : (trainInd n none).toFinset = Finset.univ := by
    rw [trainInd_toFinset]; simp [Spec.training]
  cases hv : rankVal (cols (Np.fillDiagonal (toXR x) .ninf) (trainInd n none) i) t with
  | fin ρ =>
    rw [hv] at hr
    refine ⟨ρ, rfl, ?_, ?_, ?_⟩
    · obtain ⟨c, hc⟩ := hr.attained
      refine ⟨(trainInd n none).get c, ?_, ?_⟩
      · rw [Finset.mem_erase]
        refine ⟨?_, Finset.mem_univ _⟩
        intro h
        simp [cols, Np.fillDiagonal, ← h] at hc
      · unfold cols Np.fillDiagonal at hc
        split at hc
        · exact absurd hc (by simp)
        · simp only [neg_inj]; simpa [toXR] using hc
    · have hle := hr.upto
      rw [cols_count (Np.fillDiagonal (toXR x) .ninf) (trainInd n none) (trainInd_nodup n none) i
        (fun v => v ≤ .fin ρ), htr] at hle
      have hsplit := Finset.card_filter_add_card_filter_not (s := (Finset.univ : Finset (Fin n)))
        (fun j => Np.fillDiagonal (toXR x) .ninf i j ≤ .fin ρ)
      have heq : (Finset.univ.filter (fun j => ¬ Np.fillDiagonal (toXR x) .ninf i j ≤ .fin ρ)) =
          ((Finset.univ.erase i).filter (fun j => - x i j < - ρ)) := by
        ext j
        simp only [Finset.mem_filter, Finset.mem_erase, Finset.mem_univ, true_and, and_true]
        by_cases h : i = j
        · subst h
          simp [Np.fillDiagonal]
        · have : i.val ≠ j.val := fun h' => h (Fin.ext h')
          simp [Np.fillDiagonal, toXR, this, Ne.symm h]
      rw [heq] at hsplit
      simp only [Finset.card_univ, Fintype.card_fin] at hsplit
      omega
    · have hlt := hr.below
      rw [cols_count (Np.fillDiagonal (toXR x) .ninf) (trainInd n none) (trainInd_nodup n none) i
        (fun v => v < .fin ρ), htr] at hlt
      have hsplit := Finset.card_filter_add_card_filter_not (s := (Finset.univ : Finset (Fin n)))
        (fun j => Np.fillDiagonal (toXR x) .ninf i j < .fin ρ)
      have heq : (Finset.univ.filter (fun j => ¬ Np.fillDiagonal (toXR x) .ninf i j < .fin ρ)) =
          ((Finset.univ.erase i).filter (fun j => - x i j ≤ - ρ)) := by
        ext j
        simp only [Finset.mem_filter, Finset.mem_erase, Finset.mem_univ, true_and, and_true]
        by_cases h : i = j
        · subst h
          simp [Np.fillDiagonal]
        · have : i.val ≠ j.val := fun h' => h (Fin.ext h')
          simp [Np.fillDiagonal, toXR, this, Ne.symm h]
      rw [heq] at hsplit
      simp only [Finset.card_univ, Fintype.card_fin] at hsplit
      omega
  | ninf =>
    exfalso
    rw [hv] at hr
    have hle := hr.upto
    rw [cols_count (Np.fillDiagonal (toXR x) .ninf) (trainInd n none) (trainInd_nodup n none) i
        (fun v => v ≤ .ninf), htr] at hle
    have hsub : Finset.univ.filter (fun j => Np.fillDiagonal (toXR x) .ninf i j ≤ .ninf) ⊆ {i} := by
      intro j hj
      simp only [Finset.mem_filter, Finset.mem_univ, true_and] at hj
      rw [Finset.mem_singleton]
      by_contra h
      have : i.val ≠ j.val := fun h' => h (Fin.ext h').symm
      simp [Np.fillDiagonal, toXR, this] at hj
    have := Finset.card_le_card hsub
    simp only [Finset.card_singleton] at this
    omega
  | pinf =>
    exfalso
    rw [hv] at hr
    obtain ⟨c, hc⟩ := hr.attained
    unfold cols Np.fillDiagonal toXR at hc
    split at hc <;> simp at hc
  | nan =>
    exfalso
    rw [hv] at hr
    obtain ⟨c, hc⟩ := hr.attained
    unfold cols Np.fillDiagonal toXR at hc
    split at hc <;> simp at hc

/-! ### One entry -/

theorem entry_distance (d ri rj : ℝ) (hi : 0 < ri) (hj : 0 < rj) :
    entry "distance" (.fin d) (.fin ri) (.fin rj) = .fin (Spec.localScaling d ri rj) := by
  have h : ri * rj ≠ 0 := (mul_pos hi hj).ne'
  unfold entry Spec.localScaling
  simp only [XR.mul, XR.div, h, if_false, XR.exp, show ¬ ("distance" = "similarity") by decide, XR.sub,
    XR.neg, XR.add]
  congr 1
  rw [show (-1 * (d * d) / (ri * rj)) = -(d ^ 2 / (ri * rj)) by ring]
  ring

theorem entry_similarity (d ri rj : ℝ) (h : ri * rj ≠ 0) :
    entry "similarity" (.fin d) (.fin ri) (.fin rj) = .fin (Real.exp (-(d ^ 2 / (ri * rj)))) := by
  unfold entry
  simp only [XR.mul, XR.div, h, if_false, XR.exp, if_true]
  rw [show (-1 * (d * d) / (ri * rj)) = -(d ^ 2 / (ri * rj)) by ring]

theorem entry_distance_zero (d : ℝ) (ri rj : ℝ) (h : ri * rj = 0) :
    entry "distance" (.fin d) (.fin ri) (.fin rj) = if d = 0 then .nan else .fin 1 := by
  unfold entry
  simp only [XR.mul, XR.div, h, if_true, show ¬ ("distance" = "similarity") by decide, XR.infMul]
  by_cases hd : d = 0
  · simp [hd, XR.exp, XR.sub, XR.neg, XR.add]
  · have : 0 < d * d := mul_self_pos.2 hd
    have h1 : ¬ (0 < -1 * (d * d)) := by linarith
    have h2 : ¬ (-1 * (d * d) = 0) := by intro h; linarith
    simp only [h1, h2, hd, if_false, XR.exp, XR.sub, XR.neg, XR.add]
    simp

end HubToolbox.LS
