import Verif.SNN.Simhub
import Mathlib.Tactic.Linarith
import Mathlib.Tactic.Positivity
import Mathlib.Analysis.Complex.ExponentialBounds

/-!
# Properties of `simhubIN` and `simhub` (C35, C36, C76, C77)
-/

set_option autoImplicit false

namespace HubToolbox.SNN

open HubToolbox LS

/-- Points with column `j` in their neighbourhood, plus one. -/
theorem occ_square (w : World ℝ) {n : ℕ} (D : Fin n → Fin n → XR ℝ) (s : ℤ) (j : Fin n) :
    occ (markSerial (squareSel w D s)) j + 1 =
      Spec.occurrence Finset.univ (fun i => (squareSel w D s i).toFinset) j := by
  rw [occ_mark]
  unfold Spec.occurrence
  congr 2
  ext i
  simp

theorem occIN_square (w : World ℝ) {n : ℕ} (D : Fin n → Fin n → XR ℝ) (s : ℤ) (j : Fin n)
    (hj : j ∉ (squareSel w D s j).toFinset) :
    occIN (markSerial (squareSel w D s)) j =
      Spec.occurrence Finset.univ (fun i => (squareSel w D s i).toFinset) j := by
  rw [occIN_mark]
  unfold Spec.occurrence
  have : Finset.univ.filter (fun i : Fin n => i.val < n ∧ (i.val = j.val ∨ j ∈ (squareSel w D s i).toFinset)) =
      insert j (Finset.univ.filter (fun i : Fin n => j ∈ (squareSel w D s i).toFinset)) := by
    ext i
    simp only [Finset.mem_filter, Finset.mem_univ, true_and, Finset.mem_insert, i.isLt, Fin.ext_iff]
  rw [this, Finset.card_insert_of_notMem (by simpa using hj)]

theorem occurrence_pos {ι κ : Type} [DecidableEq ι] (P : Finset κ) (N : κ → Finset ι) (x : ι) :
    0 < Spec.occurrence P N x := Nat.succ_pos _

theorem log_fin {m : ℕ} (hm : 0 < m) : XR.log (.fin (m : ℝ)) = .fin (Real.log m) := by
  have h1 : (0 : ℝ) < m := Nat.cast_pos.2 hm
  simp only [XR.log, if_neg h1.ne', if_neg h1.not_gt]

theorem log_pos_of {m : ℕ} (hm : 1 < m) : 0 < Real.log m := Real.log_pos (by exact_mod_cast hm)

/-- **C35**: without sampling, `simhubIN` returns the normalised, informativeness weighted number of common true
`s`-nearest neighbours (or one minus it), for every schedule, number of processes, sort algorithm and ties. -/
theorem C35_formula (w : World ℝ) {n : ℕ} (D : Fin n → Fin n → XR ℝ) (x : Fin n → Fin n → ℝ)
    (hD : ∀ i j, i ≠ j → D i j = .fin (x i j)) (s : ℕ) (h1 : 1 ≤ s) (hs : s < n) (rd : Bool) (nJobs : ℤ) :
    ∃ N : Fin n → Finset (Fin n),
      (∀ i, Spec.IsHood (Spec.nearer "distance") (Finset.univ.erase i) (x i) s (N i)) ∧
      simhubIN w (.mat false n n D) none none s rd nJobs =
        .ok ⟨n, n, fun i j => .fin (Spec.orDistance rd (if i = j then 1 else
          Spec.simhub n s (Spec.occurrence Finset.univ N) (fun _ => 1) 1 (N i) (N j)))⟩ := by
  have hN := squareSel_isHood w D x hD s hs
  refine ⟨fun i => (squareSel w D s i).toFinset, hN, ?_⟩
  have hself : ∀ j, j ∉ (squareSel w D s j).toFinset := fun j hj => by
    have := (hN j).sub hj
    simp at this
  have hnorm : (s : ℝ) * Real.log n ≠ 0 :=
    mul_ne_zero (Nat.cast_ne_zero.2 (by omega)) (log_pos_of (by omega)).ne'
  rw [simhubIN_square, log_fin (by omega)]
  simp only [Int.cast_natCast, XR.mul]
  rw [shiFinish_none_fin (fun i j => ∑ c ∈ (squareSel w D s i).toFinset ∩ (squareSel w D s j).toFinset,
    Real.log ((n : ℝ) / (Spec.occurrence Finset.univ (fun i => (squareSel w D s i).toFinset) c))) _ ?_ _ hnorm]
  · unfold Spec.simhub
    simp only [mul_one]
  · intro i j
    refine shared_mark _ i j _ _ fun c => ?_
    rw [occIN_square w D s c (hself c), informativeness_fin (by omega) (occurrence_pos _ _ _)]

/-- **C35**: `simhub` without labels equals `simhubIN`. -/
theorem C35_same (w w' : World ℝ) (hw : w.srt = w'.srt) {n : ℕ} (D : Fin n → Fin n → XR ℝ) (x : Fin n → Fin n → ℝ)
    (hD : ∀ i j, i ≠ j → D i j = .fin (x i j)) (s : ℕ) (h1 : 1 ≤ s) (hs : s < n) (rd : Bool) (nJobs vu : ℤ) :
    simhub w (.mat false n n D) none none none s rd vu = simhubIN w' (.mat false n n D) none none s rd nJobs := by
  have hN := squareSel_isHood w D x hD s hs
  have hself : ∀ j, j ∉ (squareSel w D s j).toFinset := fun j hj => by
    have := (hN j).sub hj
    simp at this
  have hsel : squareSel w' D s = squareSel w D s := by
    funext i; unfold squareSel; rw [hw]
  rw [simhub_square w D s (by omega), simhubIN_square, hsel]
  congr 2
  funext i j
  congr 1
  funext c
  rw [occ_square, occIN_square w D s c (hself c), informativeness_fin (by omega) (occurrence_pos _ _ _)]
  simp [XR.mul]

section bounds
variable {n s : ℕ}

theorem occurrence_le (N : Fin n → Finset (Fin n)) (hself : ∀ j, j ∉ N j) (x : Fin n) :
    Spec.occurrence Finset.univ N x ≤ n := by
  unfold Spec.occurrence
  have : Finset.univ.filter (fun i => x ∈ N i) ⊆ Finset.univ.erase x := by
    intro i hi
    refine Finset.mem_erase.2 ⟨?_, Finset.mem_univ _⟩
    rintro rfl
    exact hself i (Finset.mem_filter.1 hi).2
  have h := Finset.card_le_card this
  rw [Finset.card_erase_of_mem (Finset.mem_univ x), Finset.card_univ, Fintype.card_fin] at h
  have : 0 < n := x.pos
  omega

theorem inform_bounds {o : ℕ} (hn : 0 < n) (ho : 0 < o) (hle : o ≤ n) :
    0 ≤ Real.log ((n : ℝ) / o) ∧ Real.log ((n : ℝ) / o) ≤ Real.log n := by
  have hn' : (0 : ℝ) < n := Nat.cast_pos.2 hn
  have ho' : (0 : ℝ) < o := Nat.cast_pos.2 ho
  have h1 : (1 : ℝ) ≤ o := by exact_mod_cast ho
  refine ⟨Real.log_nonneg ?_, Real.log_le_log (div_pos hn' ho') (div_le_self hn'.le h1)⟩
  rw [le_div_iff₀ ho', one_mul]
  exact_mod_cast hle

/-- Upper bound of the similarity for weights at most `wmax`. -/
theorem simhub_le_one (hn : 1 < n) (h1 : 1 ≤ s) (occ : Fin n → ℕ) (ho : ∀ x, 0 < occ x ∧ occ x ≤ n)
    (weight : Fin n → ℝ) (wmax : ℝ) (hw0 : 0 < wmax) (hw : ∀ x, weight x ≤ wmax) (N N' : Finset (Fin n))
    (hN : N.card = s) : Spec.simhub n s occ weight wmax N N' ≤ 1 := by
  have hlog := log_pos_of hn
  have hs : (0 : ℝ) < s := by exact_mod_cast h1
  unfold Spec.simhub
  rw [div_le_one (mul_pos (mul_pos hs hlog) hw0)]
  calc ∑ x ∈ N ∩ N', Real.log ((n : ℝ) / occ x) * weight x
      ≤ ∑ x ∈ N ∩ N', Real.log n * wmax := by
        refine Finset.sum_le_sum fun x _ => ?_
        have hb := inform_bounds (by omega) (ho x).1 (ho x).2
        exact le_trans (mul_le_mul_of_nonneg_left (hw x) hb.1) (mul_le_mul_of_nonneg_right hb.2 hw0.le)
    _ = ((N ∩ N').card : ℝ) * (Real.log n * wmax) := by rw [Finset.sum_const, nsmul_eq_mul]
    _ ≤ (s : ℝ) * (Real.log n * wmax) := by
        refine mul_le_mul_of_nonneg_right ?_ (mul_pos hlog hw0).le
        rw [← hN]
        exact_mod_cast Finset.card_le_card Finset.inter_subset_left
    _ = s * Real.log n * wmax := by ring

theorem simhub_nonneg (hn : 1 < n) (h1 : 1 ≤ s) (occ : Fin n → ℕ) (ho : ∀ x, 0 < occ x ∧ occ x ≤ n)
    (weight : Fin n → ℝ) (wmax : ℝ) (hw0 : 0 < wmax) (hw : ∀ x, 0 ≤ weight x) (N N' : Finset (Fin n)) :
    0 ≤ Spec.simhub n s occ weight wmax N N' := by
  have hlog := log_pos_of hn
  have hs : (0 : ℝ) < s := by exact_mod_cast h1
  unfold Spec.simhub
  refine div_nonneg (Finset.sum_nonneg fun x _ => ?_) (mul_pos (mul_pos hs hlog) hw0).le
  exact mul_nonneg (inform_bounds (by omega) (ho x).1 (ho x).2).1 (hw x)

theorem simhub_symm (occ : Fin n → ℕ) (weight : Fin n → ℝ) (wmax : ℝ) (N N' : Finset (Fin n)) :
    Spec.simhub n s occ weight wmax N N' = Spec.simhub n s occ weight wmax N' N := by
  unfold Spec.simhub; rw [Finset.inter_comm]
end bounds

theorem orDistance_bounds (rd : Bool) (v : ℝ) (h0 : 0 ≤ v) (h1 : v ≤ 1) :
    0 ≤ Spec.orDistance rd v ∧ Spec.orDistance rd v ≤ 1 := by
  cases rd <;> simp only [Spec.orDistance, if_true] <;> constructor <;> first | linarith | (simp; linarith)

/-- **C35**: symmetric, in `[0, 1]`, right diagonal. -/
theorem C35_valid (w : World ℝ) {n : ℕ} (D : Fin n → Fin n → XR ℝ) (x : Fin n → Fin n → ℝ)
    (hD : ∀ i j, i ≠ j → D i j = .fin (x i j)) (s : ℕ) (h1 : 1 ≤ s) (hs : s < n) (rd : Bool) (nJobs : ℤ) :
    ∃ v : Fin n → Fin n → ℝ,
      simhubIN w (.mat false n n D) none none s rd nJobs = .ok ⟨n, n, fun i j => .fin (v i j)⟩ ∧
      (∀ i j, v i j = v j i) ∧ (∀ i j, 0 ≤ v i j ∧ v i j ≤ 1) ∧ ∀ i, v i i = if rd then 0 else 1 := by
  obtain ⟨N, hN, h⟩ := C35_formula w D x hD s h1 hs rd nJobs
  have hself : ∀ j, j ∉ N j := fun j hj => by have := (hN j).sub hj; simp at this
  have ho : ∀ x, 0 < Spec.occurrence Finset.univ N x ∧ Spec.occurrence Finset.univ N x ≤ n :=
    fun x => ⟨occurrence_pos _ _ _, occurrence_le N hself x⟩
  refine ⟨_, h, ?_, ?_, ?_⟩
  · intro i j
    by_cases hij : i = j
    · simp [hij]
    · rw [if_neg hij, if_neg (Ne.symm hij), simhub_symm]
  · intro i j
    by_cases hij : i = j
    · rw [if_pos hij]; exact orDistance_bounds rd 1 zero_le_one le_rfl
    · rw [if_neg hij]
      exact orDistance_bounds rd _
        (simhub_nonneg (by omega) h1 _ ho _ 1 one_pos (fun _ => zero_le_one) _ _)
        (simhub_le_one (by omega) h1 _ ho _ 1 one_pos (fun _ => le_rfl) _ _ (hN i).card)
  · intro i
    rw [if_pos rfl]
    cases rd <;> simp [Spec.orDistance]

/-! ### Supervised simhub -/

section supervised
variable (w : World ℝ) {n : ℕ} (D : Fin n → Fin n → XR ℝ) (y : Fin n → ℤ) (s : ℤ)

theorem occClass_square (c : ℤ) (j : Fin n) :
    occClass (markSerial (squareSel w D s)) y c j =
      (Finset.univ.filter (fun i => j ∈ (squareSel w D s i).toFinset ∧ y i = c)).card := by
  unfold occClass
  rw [countTrue_card]
  congr 1
  ext i
  simp [markSerial_apply]

theorem unique_toFinset : (Np.unique (List.ofFn y)).toFinset = Finset.univ.image y := by
  ext c
  rw [List.mem_toFinset, Np.mem_unique, List.mem_ofFn]
  simp

theorem unique_length : (Np.unique (List.ofFn y)).length = (Finset.univ.image y).card := by
  rw [← unique_toFinset, List.toFinset_card_of_nodup (Np.nodup_unique _)]

theorem occClass_sum (j : Fin n) :
    ((Np.unique (List.ofFn y)).map (fun c => occClass (markSerial (squareSel w D s)) y c j)).sum =
      occ (markSerial (squareSel w D s)) j := by
  rw [← List.sum_toFinset _ (Np.nodup_unique _), unique_toFinset, occ_mark]
  simp only [occClass_square]
  rw [Finset.card_eq_sum_card_fiberwise (f := y) (t := Finset.univ.image y)]
  · refine Finset.sum_congr rfl fun c _ => ?_
    congr 1
    ext i
    simp
  · intro i _
    simp

theorem get_sum (C : List ℤ) (hC : C.Nodup) (f : ℤ → ℝ) : ∑ c : Fin C.length, f (C.get c) = ∑ c ∈ C.toFinset, f c := by
  rw [List.sum_toFinset f hC, ← List.sum_ofFn]
  congr 1
  conv_rhs => rw [← List.ofFn_get C, List.map_ofFn]
  rfl

theorem plogp_fin (a b : ℕ) :
    plogp a b = .fin (((a + 1 : ℕ) : ℝ) / ((b + 1 : ℕ) : ℝ) * Real.log (((a + 1 : ℕ) : ℝ) / ((b + 1 : ℕ) : ℝ))) := by
  have h1 : (0 : ℝ) < ((a + 1 : ℕ) : ℝ) := Nat.cast_pos.2 (Nat.succ_pos _)
  have h2 : (0 : ℝ) < ((b + 1 : ℕ) : ℝ) := Nat.cast_pos.2 (Nat.succ_pos _)
  have h3 := div_pos h1 h2
  unfold plogp
  simp only [XR.div, if_neg h2.ne', XR.log, if_neg h3.ne', if_neg h3.not_gt, XR.mul]

theorem infoGain_square (hn : 0 < n) (j : Fin n) :
    infoGain (markSerial (squareSel w D s)) y (Np.unique (List.ofFn y)) j =
      .fin (Spec.informationGain (Finset.univ.image y)
        (Spec.occurrence Finset.univ (fun i => (squareSel w D s i).toFinset) j)
        (fun c => Spec.classOccurrence Finset.univ (fun i => (squareSel w D s i).toFinset) y c j)) := by
  have hC : 0 < (Np.unique (List.ofFn y)).length := by
    rw [unique_length]
    exact Finset.card_pos.2 ⟨y ⟨0, hn⟩, Finset.mem_image.2 ⟨_, Finset.mem_univ _, rfl⟩⟩
  unfold infoGain
  rw [log_fin hC]
  simp only [plogp_fin]
  rw [sum_fin, get_sum _ (Np.nodup_unique _) (fun c =>
    (((occClass (markSerial (squareSel w D s)) y c j + 1 : ℕ) : ℝ) / ((occ (markSerial (squareSel w D s)) j + 1 : ℕ) : ℝ) *
      Real.log (((occClass (markSerial (squareSel w D s)) y c j + 1 : ℕ) : ℝ) /
        ((occ (markSerial (squareSel w D s)) j + 1 : ℕ) : ℝ)))), unique_toFinset]
  simp only [XR.sub, XR.neg, XR.add]
  congr 1
  unfold Spec.informationGain Spec.classOccurrence
  rw [unique_length, Finset.sum_neg_distrib, sub_eq_add_neg]
  simp only [occClass_square, occ_square]
end supervised

/-- **C36**, the formula: supervised `simhub` weights the informativeness of each common neighbour by its information gain
and divides by `s * log n * log |C|`, for labellings with at least two classes. -/
theorem C36_formula (w : World ℝ) {n : ℕ} (D : Fin n → Fin n → XR ℝ) (x : Fin n → Fin n → ℝ)
    (hD : ∀ i j, i ≠ j → D i j = .fin (x i j)) (y : Fin n → ℤ) (hy : 2 ≤ (Finset.univ.image y).card)
    (s : ℕ) (h1 : 1 ≤ s) (hs : s < n) (rd : Bool) (vu : ℤ) :
    ∃ N : Fin n → Finset (Fin n),
      (∀ i, Spec.IsHood (Spec.nearer "distance") (Finset.univ.erase i) (x i) s (N i)) ∧
      simhub w (.mat false n n D) (some ⟨n, y⟩) none none s rd vu =
        .ok ⟨n, n, fun i j => .fin (Spec.orDistance rd (if i = j then 1 else
          Spec.simhub n s (Spec.occurrence Finset.univ N)
            (fun x => Spec.informationGain (Finset.univ.image y) (Spec.occurrence Finset.univ N x)
              (fun c => Spec.classOccurrence Finset.univ N y c x))
            (Real.log (Finset.univ.image y).card) (N i) (N j)))⟩ := by
  have hN := squareSel_isHood w D x hD s hs
  refine ⟨fun i => (squareSel w D s i).toFinset, hN, ?_⟩
  have hnorm : (s : ℝ) * Real.log n * Real.log (Finset.univ.image y).card ≠ 0 :=
    mul_ne_zero (mul_ne_zero (Nat.cast_ne_zero.2 (by omega)) (log_pos_of (by omega)).ne') (log_pos_of (by omega)).ne'
  rw [simhub_square_labels w D y s (by omega) rd vu _ rfl (occClass_sum w D y s), log_fin (by omega), unique_length,
    log_fin (by omega)]
  simp only [Int.cast_natCast, XR.mul]
  rw [shiFinish_none_fin (fun i j => ∑ c ∈ (squareSel w D s i).toFinset ∩ (squareSel w D s j).toFinset,
    Real.log ((n : ℝ) / (Spec.occurrence Finset.univ (fun i => (squareSel w D s i).toFinset) c)) *
      Spec.informationGain (Finset.univ.image y)
        (Spec.occurrence Finset.univ (fun i => (squareSel w D s i).toFinset) c)
        (fun k => Spec.classOccurrence Finset.univ (fun i => (squareSel w D s i).toFinset) y k c)) _ ?_ _ hnorm]
  · rfl
  · intro i j
    refine shared_mark _ i j _ _ fun c => ?_
    rw [occ_square, informativeness_fin (by omega) (occurrence_pos _ _ _), infoGain_square w D y s (by omega)]

theorem classOccurrence_le {n : ℕ} (N : Fin n → Finset (Fin n)) (y : Fin n → ℤ) (c : ℤ) (x : Fin n) :
    Spec.classOccurrence Finset.univ N y c x ≤ Spec.occurrence Finset.univ N x := by
  unfold Spec.classOccurrence Spec.occurrence
  have : (Finset.univ.filter (fun i => x ∈ N i ∧ y i = c)).card ≤ (Finset.univ.filter (fun i => x ∈ N i)).card := by
    apply Finset.card_le_card
    intro i hi
    simp only [Finset.mem_filter, Finset.mem_univ, true_and] at hi ⊢
    exact hi.1
  omega

/-- The entropy is not negative. -/
theorem informationGain_le {n : ℕ} (N : Fin n → Finset (Fin n)) (y : Fin n → ℤ) (x : Fin n) :
    Spec.informationGain (Finset.univ.image y) (Spec.occurrence Finset.univ N x)
      (fun c => Spec.classOccurrence Finset.univ N y c x) ≤ Real.log (Finset.univ.image y).card := by
  unfold Spec.informationGain
  have : 0 ≤ ∑ c ∈ Finset.univ.image y,
      -((Spec.classOccurrence Finset.univ N y c x : ℝ) / Spec.occurrence Finset.univ N x *
        Real.log ((Spec.classOccurrence Finset.univ N y c x : ℝ) / Spec.occurrence Finset.univ N x)) := by
    refine Finset.sum_nonneg fun c _ => ?_
    have h0 : (0 : ℝ) < Spec.occurrence Finset.univ N x := Nat.cast_pos.2 (occurrence_pos _ _ _)
    have h1 : (0 : ℝ) ≤ (Spec.classOccurrence Finset.univ N y c x : ℝ) / Spec.occurrence Finset.univ N x := by positivity
    have h2 : (Spec.classOccurrence Finset.univ N y c x : ℝ) / Spec.occurrence Finset.univ N x ≤ 1 := by
      rw [div_le_one h0]; exact_mod_cast classOccurrence_le N y c x
    have := Real.log_nonpos h1 h2
    nlinarith
  linarith

/-- With two classes the smoothed entropy does not exceed `log 2`. -/
theorem informationGain_nonneg_two {n : ℕ} (N : Fin n → Finset (Fin n)) (y : Fin n → ℤ) (x : Fin n)
    (hy : (Finset.univ.image y).card = 2) :
    0 ≤ Spec.informationGain (Finset.univ.image y) (Spec.occurrence Finset.univ N x)
      (fun c => Spec.classOccurrence Finset.univ N y c x) := by
  have h0 : (0 : ℝ) < Spec.occurrence Finset.univ N x := Nat.cast_pos.2 (occurrence_pos _ _ _)
  have hl2 : Real.log 2 < 1 := by have := Real.log_two_lt_d9; linarith
  -- tangent at 1/2
  have htan : ∀ p : ℝ, 0 < p → -(p * Real.log p) ≤ p * Real.log 2 + 1 / 2 - p := by
    intro p hp
    have h := Real.log_le_sub_one_of_pos (show (0 : ℝ) < 1 / (2 * p) by positivity)
    rw [Real.log_div one_ne_zero (by positivity), Real.log_one, Real.log_mul two_ne_zero hp.ne'] at h
    have h' := mul_le_mul_of_nonneg_left h hp.le
    have h3 : p * (1 / (2 * p) - 1) = 1 / 2 - p := by field_simp
    rw [h3] at h'
    nlinarith
  obtain ⟨a, b, hab, himg⟩ := Finset.card_eq_two.1 hy
  have hsum : (Spec.classOccurrence Finset.univ N y a x : ℝ) + Spec.classOccurrence Finset.univ N y b x =
      Spec.occurrence Finset.univ N x + 1 := by
    have : (Finset.univ.filter (fun i => x ∈ N i)).card = (Finset.univ.filter (fun i => x ∈ N i ∧ y i = a)).card +
        (Finset.univ.filter (fun i => x ∈ N i ∧ y i = b)).card := by
      rw [← Finset.card_union_of_disjoint]
      · congr 1
        ext i
        have hi : y i ∈ ({a, b} : Finset ℤ) := by
          rw [← himg]; exact Finset.mem_image.2 ⟨i, Finset.mem_univ _, rfl⟩
        simp only [Finset.mem_insert, Finset.mem_singleton] at hi
        simp only [Finset.mem_filter, Finset.mem_univ, true_and, Finset.mem_union]
        tauto
      · rw [Finset.disjoint_left]
        intro i hi hi'
        simp only [Finset.mem_filter, Finset.mem_univ, true_and] at hi hi'
        exact hab (hi.2.symm.trans hi'.2)
    unfold Spec.classOccurrence Spec.occurrence
    rw [this]
    push_cast
    ring
  unfold Spec.informationGain
  rw [himg, Finset.sum_pair hab, Finset.card_pair hab]
  have hpa : (0 : ℝ) < (Spec.classOccurrence Finset.univ N y a x : ℝ) / Spec.occurrence Finset.univ N x :=
    div_pos (Nat.cast_pos.2 (Nat.succ_pos _)) h0
  have hpb : (0 : ℝ) < (Spec.classOccurrence Finset.univ N y b x : ℝ) / Spec.occurrence Finset.univ N x :=
    div_pos (Nat.cast_pos.2 (Nat.succ_pos _)) h0
  have hge : (1 : ℝ) ≤ (Spec.classOccurrence Finset.univ N y a x : ℝ) / Spec.occurrence Finset.univ N x +
      (Spec.classOccurrence Finset.univ N y b x : ℝ) / Spec.occurrence Finset.univ N x := by
    rw [← add_div, hsum, le_div_iff₀ h0]; linarith
  have ha := htan _ hpa
  have hb := htan _ hpb
  generalize (Spec.classOccurrence Finset.univ N y a x : ℝ) / Spec.occurrence Finset.univ N x = p at *
  generalize (Spec.classOccurrence Finset.univ N y b x : ℝ) / Spec.occurrence Finset.univ N x = q at *
  push_cast
  nlinarith

/-- **C36**, the part which holds for every labelling with at least two classes: similarities are at most one (distances
are not negative), the matrix is symmetric and has the right diagonal. -/
theorem C36_upper_partial (w : World ℝ) {n : ℕ} (D : Fin n → Fin n → XR ℝ) (x : Fin n → Fin n → ℝ)
    (hD : ∀ i j, i ≠ j → D i j = .fin (x i j)) (y : Fin n → ℤ) (hy : 2 ≤ (Finset.univ.image y).card)
    (s : ℕ) (h1 : 1 ≤ s) (hs : s < n) (rd : Bool) (vu : ℤ) :
    ∃ v : Fin n → Fin n → ℝ,
      simhub w (.mat false n n D) (some ⟨n, y⟩) none none s rd vu =
        .ok ⟨n, n, fun i j => .fin (Spec.orDistance rd (v i j))⟩ ∧
      (∀ i j, v i j = v j i) ∧ (∀ i j, v i j ≤ 1) ∧ ∀ i, v i i = 1 := by
  obtain ⟨N, hN, h⟩ := C36_formula w D x hD y hy s h1 hs rd vu
  have hself : ∀ j, j ∉ N j := fun j hj => by have := (hN j).sub hj; simp at this
  have ho : ∀ x, 0 < Spec.occurrence Finset.univ N x ∧ Spec.occurrence Finset.univ N x ≤ n :=
    fun x => ⟨occurrence_pos _ _ _, occurrence_le N hself x⟩
  refine ⟨_, h, ?_, ?_, ?_⟩
  · intro i j
    by_cases hij : i = j
    · simp [hij]
    · rw [if_neg hij, if_neg (Ne.symm hij), simhub_symm]
  · intro i j
    split
    · exact le_rfl
    · exact simhub_le_one (by omega) h1 _ ho _ _ (log_pos_of (by omega)) (fun x => informationGain_le N y x) _ _
        (hN i).card
  · intro i; rw [if_pos rfl]

/-- **C36**, the part which holds: with exactly two classes all values are in `[0, 1]`. -/
theorem C36_two_classes_partial (w : World ℝ) {n : ℕ} (D : Fin n → Fin n → XR ℝ) (x : Fin n → Fin n → ℝ)
    (hD : ∀ i j, i ≠ j → D i j = .fin (x i j)) (y : Fin n → ℤ) (hy : (Finset.univ.image y).card = 2)
    (s : ℕ) (h1 : 1 ≤ s) (hs : s < n) (rd : Bool) (vu : ℤ) :
    ∃ v : Fin n → Fin n → ℝ,
      simhub w (.mat false n n D) (some ⟨n, y⟩) none none s rd vu = .ok ⟨n, n, fun i j => .fin (v i j)⟩ ∧
      ∀ i j, 0 ≤ v i j ∧ v i j ≤ 1 := by
  obtain ⟨N, hN, h⟩ := C36_formula w D x hD y hy.ge s h1 hs rd vu
  have hself : ∀ j, j ∉ N j := fun j hj => by have := (hN j).sub hj; simp at this
  have ho : ∀ x, 0 < Spec.occurrence Finset.univ N x ∧ Spec.occurrence Finset.univ N x ≤ n :=
    fun x => ⟨occurrence_pos _ _ _, occurrence_le N hself x⟩
  have hlog : 0 < Real.log (Finset.univ.image y).card := log_pos_of (by omega)
  refine ⟨_, h, ?_⟩
  intro i j
  split
  · exact orDistance_bounds rd 1 zero_le_one le_rfl
  · exact orDistance_bounds rd _
      (simhub_nonneg (by omega) h1 _ ho _ _ hlog (fun x => informationGain_nonneg_two N y x hy) _ _)
      (simhub_le_one (by omega) h1 _ ho _ _ hlog (fun x => informationGain_le N y x) _ _ (hN i).card)

/-! ### Violations -/

/-- With one neighbour and a strict minimum the neighbourhood is that minimum. -/
theorem hood_one {n : ℕ} (S : Finset (Fin n)) (d : Fin n → ℝ) (a : Fin n) (ha : a ∈ S)
    (hmin : ∀ b ∈ S, b ≠ a → d a < d b) (N : Finset (Fin n))
    (hN : Spec.IsHood (Spec.nearer "distance") S d 1 N) : N = {a} := by
  obtain ⟨b, rfl⟩ := Finset.card_eq_one.1 hN.card
  by_contra hne
  have hba : b ≠ a := fun h => hne (by rw [h])
  have := hN.best b (Finset.mem_singleton_self b) a ha (by simpa using hba.symm)
  simp only [Spec.nearer, if_neg (show ¬ ("distance" = "similarity") by decide)] at this
  exact absurd (hmin b (hN.sub (Finset.mem_singleton_self b)) hba) (not_lt.2 this)

/-- Six points: 4 is the nearest neighbour of 0 … 3, and 0 the one of 4 and 5. -/
def star6 : Fin 6 → Fin 6 → ℕ :=
  ![![0, 3, 3, 3, 1, 2], ![3, 0, 3, 3, 2, 3], ![3, 3, 0, 3, 2, 3], ![3, 3, 3, 0, 2, 3], ![1, 2, 2, 2, 0, 3],
    ![2, 3, 3, 3, 3, 0]]

/-- Nearest neighbours in `star6`. -/
def near6 : Fin 6 → Fin 6 := ![4, 4, 4, 4, 0, 0]

/-- **C36** is violated: with four classes, one of each among the points whose nearest neighbour is 4, the similarity of
points 0 and 1 is negative (their distance exceeds one). -/
theorem C36_violated (w : World ℝ) (vu : ℤ) :
    ∃ v : Fin 6 → Fin 6 → ℝ,
      simhub w (.mat false 6 6 (fun i j => .fin (star6 i j : ℝ))) (some ⟨6, ![0, 1, 2, 3, 0, 0]⟩) none none 1 false vu =
        .ok ⟨6, 6, fun i j => .fin (v i j)⟩ ∧ v 0 1 < 0 := by
  obtain ⟨N, hN, h⟩ := C36_formula w (fun i j => .fin (star6 i j : ℝ)) (fun i j => (star6 i j : ℝ)) (fun _ _ _ => rfl)
    ![0, 1, 2, 3, 0, 0] (by decide) 1 le_rfl (by norm_num) false vu
  have hnear : ∀ i j : Fin 6, j ≠ i → j ≠ near6 i → star6 i (near6 i) < star6 i j := by decide
  have hne : ∀ i : Fin 6, near6 i ≠ i := by decide
  have hNeq : N = fun i => {near6 i} := by
    funext i
    refine hood_one _ _ _ (Finset.mem_erase.2 ⟨hne i, Finset.mem_univ _⟩) ?_ _ (hN i)
    intro b hb hb'
    exact_mod_cast hnear i b (Finset.mem_erase.1 hb).1 hb'
  refine ⟨_, h, ?_⟩
  subst hNeq
  have himg : (Finset.univ.image (![0, 1, 2, 3, 0, 0] : Fin 6 → ℤ)) = {0, 1, 2, 3} := by decide
  have hocc : Spec.occurrence Finset.univ (fun i : Fin 6 => ({near6 i} : Finset (Fin 6))) 4 = 5 := by decide
  have hcl : ∀ c ∈ ({0, 1, 2, 3} : Finset ℤ), Spec.classOccurrence Finset.univ
      (fun i : Fin 6 => ({near6 i} : Finset (Fin 6))) ![0, 1, 2, 3, 0, 0] c 4 = 2 := by decide
  have hint : ({near6 0} ∩ {near6 1} : Finset (Fin 6)) = {4} := by decide
  simp only [Spec.orDistance, Spec.simhub]
  rw [if_neg (by decide), if_neg (by decide), hint, Finset.sum_singleton, hocc, himg]
  unfold Spec.informationGain
  rw [Finset.sum_congr rfl (g := fun _ => -((2 : ℝ) / 5 * Real.log (2 / 5))) (fun c hc => by
    simp only [hcl c hc]; norm_num)]
  rw [Finset.sum_const, show ({0, 1, 2, 3} : Finset ℤ).card = 4 from rfl, nsmul_eq_mul]
  have hl65 : 0 < Real.log ((6 : ℕ) / (5 : ℕ) : ℝ) := Real.log_pos (by norm_num)
  have hl6 : 0 < Real.log ((6 : ℕ) : ℝ) := Real.log_pos (by norm_num)
  have hl4 : 0 < Real.log ((4 : ℕ) : ℝ) := Real.log_pos (by norm_num)
  refine div_neg_of_neg_of_pos (mul_neg_of_pos_of_neg hl65 ?_) (by push_cast at hl6 hl4 ⊢; positivity)
  have hpow : Real.log 4 * 5 < 8 * Real.log (5 / 2) := by
    have h1 : Real.log ((4 : ℝ) ^ 5) < Real.log ((5 / 2 : ℝ) ^ 8) := Real.log_lt_log (by norm_num) (by norm_num)
    rw [Real.log_pow, Real.log_pow] at h1
    push_cast at h1
    linarith
  have hinv : Real.log (5 / 2 : ℝ) = - Real.log (2 / 5) := by
    rw [← Real.log_inv]; norm_num
  push_cast
  rw [hinv] at hpow
  linarith

/-- **C77** is violated: if all points carry the same label, every similarity of different points is `nan`. -/
theorem C77_violated (w : World ℝ) {n : ℕ} (D : Fin n → Fin n → XR ℝ) (c : ℤ) (s : ℕ) (h1 : 1 ≤ s) (hs : s < n)
    (vu : ℤ) :
    simhub w (.mat false n n D) (some ⟨n, fun _ => c⟩) none none s false vu =
      .ok ⟨n, n, fun i j => if i = j then .fin 1 else .nan⟩ := by
  have himg : (Finset.univ.image (fun _ : Fin n => c)).card = 1 := by
    haveI : Nonempty (Fin n) := ⟨⟨0, by omega⟩⟩
    rw [Finset.image_const Finset.univ_nonempty, Finset.card_singleton]
  rw [simhub_square_labels w D (fun _ => c) s (by omega) false vu _ rfl (occClass_sum w D _ s), log_fin (by omega),
    unique_length, himg]
  have hgain : ∀ j, infoGain (markSerial (squareSel w D s)) (fun _ => c)
      (Np.unique (List.ofFn (fun _ : Fin n => c))) j = .fin 0 := by
    intro j
    rw [infoGain_square w D _ s (by omega)]
    congr 1
    unfold Spec.informationGain
    rw [himg]
    obtain ⟨a, ha⟩ := Finset.card_eq_one.1 himg
    have hac : a = c := by
      have : a ∈ Finset.univ.image (fun _ : Fin n => c) := by rw [ha]; exact Finset.mem_singleton_self a
      obtain ⟨_, _, h⟩ := Finset.mem_image.1 this
      exact h.symm
    rw [ha, Finset.sum_singleton, hac]
    have : Spec.classOccurrence Finset.univ (fun i => (squareSel w D s i).toFinset) (fun _ => c) c j =
        Spec.occurrence Finset.univ (fun i => (squareSel w D s i).toFinset) j := by
      unfold Spec.classOccurrence Spec.occurrence; simp
    simp only [this]
    rw [div_self (Nat.cast_ne_zero.2 (occurrence_pos _ _ _).ne')]
    simp
  congr 1
  unfold shiFinish
  simp only
  congr 2
  funext i j
  unfold Np.fillDiagonal
  by_cases h : i = j
  · simp [h]
  · rw [if_neg (fun h' : i.val = j.val => h (Fin.ext h')), if_neg h]
    simp only [Bool.false_eq_true, if_false]
    rw [shared_mark (squareSel w D s) i j _ (fun _ => 0) (fun x => by
      rw [hgain, occ_square, informativeness_fin (by omega) (occurrence_pos _ _ _)]; simp [XR.mul])]
    rw [log_fin one_pos, Nat.cast_one, Real.log_one]
    simp [XR.mul, XR.div, XR.infMul]

/-- **C77**, the part which holds: with at least two classes there is no `nan`. -/
theorem C77_partial (w : World ℝ) {n : ℕ} (D : Fin n → Fin n → XR ℝ) (x : Fin n → Fin n → ℝ)
    (hD : ∀ i j, i ≠ j → D i j = .fin (x i j)) (y : Fin n → ℤ) (hy : 2 ≤ (Finset.univ.image y).card)
    (s : ℕ) (h1 : 1 ≤ s) (hs : s < n) (rd : Bool) (vu : ℤ) :
    ∃ v : Fin n → Fin n → ℝ,
      simhub w (.mat false n n D) (some ⟨n, y⟩) none none s rd vu = .ok ⟨n, n, fun i j => .fin (v i j)⟩ := by
  obtain ⟨N, _, h⟩ := C36_formula w D x hD y hy s h1 hs rd vu
  exact ⟨_, h⟩

/-- **C76** is violated: `simhubIN` accepts `s = 0` (all `nan` for different points) while `simhub` raises. -/
theorem C76_violated (w : World ℝ) {n : ℕ} (hn : 1 ≤ n) (D : Fin n → Fin n → XR ℝ) (nJobs : ℤ) :
    simhubIN w (.mat false n n D) none none 0 true nJobs =
      .ok ⟨n, n, fun i j => if i = j then .fin 0 else .nan⟩ := by
  rw [simhubIN_square, log_fin (by omega)]
  have hsel : ∀ i, squareSel w D 0 i = [] := fun i => by
    unfold squareSel top Knn.slice0; simp
  congr 1
  unfold shiFinish
  simp only
  congr 2
  funext i j
  unfold Np.fillDiagonal
  by_cases h : i = j
  · simp [h]
  · rw [if_neg (fun h' : i.val = j.val => h (Fin.ext h')), if_neg h]
    have hsh := shared_mark (squareSel w D 0) i j (fun c => informativeness n (occIN (markSerial (squareSel w D 0)) c))
      (fun c => Real.log ((n : ℝ) / occIN (markSerial (squareSel w D 0)) c)) (fun x => by
        rw [informativeness_fin (by omega)]
        rw [occIN_mark]
        exact Finset.card_pos.2 ⟨x, by simp⟩)
    simp only [hsh]
    simp [hsel, XR.mul, XR.div, XR.infMul, XR.add]

/-- **C76** is violated: `simhubIN` accepts `s ≥ n` (every distance of different points is one). -/
theorem C76_violated_large (w : World ℝ) {n : ℕ} (hn : 2 ≤ n) (D : Fin n → Fin n → XR ℝ) (s : ℕ) (hs : n ≤ s)
    (nJobs : ℤ) :
    simhubIN w (.mat false n n D) none none s true nJobs =
      .ok ⟨n, n, fun i j => if i = j then .fin 0 else .fin 1⟩ := by
  have hsel : ∀ i, (squareSel w D s i).toFinset = Finset.univ := fun i => by
    have hl : (w.srt.run (Np.fillDiagonal D .pinf i)).length = n := by
      rw [(w.srt.perm _).length_eq, List.length_finRange]
    unfold squareSel top
    simp only [if_neg (show ¬ ("distance" = "similarity") by decide)]
    unfold Knn.slice0
    rw [if_pos (Int.natCast_nonneg s), Int.toNat_natCast, List.take_of_length_le (by omega)]
    ext j
    simp [(w.srt.perm _).mem_iff]
  have hnorm : (s : ℝ) * Real.log n ≠ 0 :=
    mul_ne_zero (Nat.cast_ne_zero.2 (by omega)) (log_pos_of (by omega)).ne'
  rw [simhubIN_square, log_fin (by omega)]
  simp only [Int.cast_natCast, XR.mul]
  rw [shiFinish_none_fin (fun _ _ => 0) _ ?_ _ hnorm]
  · congr 3
    funext i j
    split <;> simp [Spec.orDistance]
  · intro i j
    rw [shared_mark _ i j _ (fun _ => 0)]
    · simp
    · intro c
      have : occIN (markSerial (squareSel w D s)) c = n := by
        rw [occIN_mark]; simp [hsel]
      rw [this, informativeness_fin (by omega) (by omega), div_self (Nat.cast_ne_zero.2 (by omega)), Real.log_one]

/-- **C76**, the part which holds: `simhub` rejects every `s` outside of `1 … n-1`. -/
theorem C76_simhub_partial (w : World ℝ) {n : ℕ} (D : Fin n → Fin n → XR ℝ) (y : Option (Σ l : ℕ, Fin l → ℤ))
    (test : Option (Σ t : ℕ, Fin t → ℤ)) (s : ℤ) (hs : ¬ (0 < s ∧ s < n)) (rd : Bool) (vu : ℤ) :
    simhub w (.mat false n n D) y none test s rd vu = .error .valueError := by
  have hc : shiCheck (.mat false n n D) none = .ok (false, ⟨n, n, D, none⟩) := by
    unfold shiCheck PyMat.checkSquare
    simp only
    rfl
  unfold simhub
  rw [hc]
  refine Eq.trans (b := if ¬ (0 < s ∧ s < n) then _ else _) rfl ?_
  rw [if_pos hs]
  rfl

/-! ### The hypotheses are satisfiable -/

example (w : World ℝ) := C35_formula w (fun i j => .fin (star6 i j : ℝ)) _ (fun _ _ _ => rfl) 2 (by norm_num)
  (by norm_num) true 4

example (w : World ℝ) := C36_formula w (fun i j => .fin (star6 i j : ℝ)) _ (fun _ _ _ => rfl) ![0, 1, 2, 3, 0, 0]
  (by decide) 2 (by norm_num) (by norm_num) true 0

example (w : World ℝ) := C36_two_classes_partial w (fun i j => .fin (star6 i j : ℝ)) _ (fun _ _ _ => rfl)
  ![0, 1, 1, 1, 0, 0] (by decide) 2 (by norm_num) (by norm_num) true 0

end HubToolbox.SNN
