import Verif.SNN.Floats
import Verif.SNN.SimhubProps

/-!
# C255: simhub of arbitrary floats

Objects may be unreachable (infinite distance) or incomparable (`nan`). Neighbourhoods follow numpy's order of floats; an object is
infinitely far from itself, but may still be its own neighbour if too few others are nearer.
-/

set_option autoImplicit false

namespace HubToolbox.SNN

open HubToolbox LS

/-- Number of objects with `x` in their neighbourhood, or which are `x`. -/
def _root_.HubToolbox.Spec.occurrenceOrSelf {n : ℕ} (N : Fin n → Finset (Fin n)) (x : Fin n) : ℕ :=
  (Finset.univ.filter (fun i : Fin n => i = x ∨ x ∈ N i)).card

theorem occurrenceOrSelf_bounds {n : ℕ} (N : Fin n → Finset (Fin n)) (x : Fin n) :
    0 < Spec.occurrenceOrSelf N x ∧ Spec.occurrenceOrSelf N x ≤ n := by
  unfold Spec.occurrenceOrSelf
  refine ⟨Finset.card_pos.2 ⟨x, by simp⟩, le_trans (Finset.card_le_univ _) (by simp)⟩

theorem squareSel_floats (w : World ℝ) {n : ℕ} (D : Fin n → Fin n → XR ℝ) (s : ℕ) (hs : s < n) (i : Fin n) :
    Spec.IsHood (Spec.nearer "distance") Finset.univ (Spec.selfLast "distance" D i) s (squareSel w D s i).toFinset := by
  have hrow : Np.fillDiagonal D .pinf i = Spec.selfLast "distance" D i := by
    funext j
    unfold Np.fillDiagonal Spec.selfLast
    by_cases hij : i = j
    · rw [if_pos (congrArg Fin.val hij), if_pos hij]; rfl
    · rw [if_neg (fun h : i.val = j.val => hij (Fin.ext h)), if_neg hij]
  have hsel := sort_sel w.srt "distance" (.inl rfl) s hs.le (Np.fillDiagonal D .pinf i)
  refine ⟨Finset.subset_univ _, ?_, ?_⟩
  · exact (List.toFinset_card_of_nodup hsel.nodup).trans hsel.length
  · intro a ha b _ hb
    have := hsel.best a (List.mem_toFinset.1 ha) b (fun h => hb (List.mem_toFinset.2 h))
    rwa [hrow] at this

/-- `simhubIN` for all floats: the informativeness weighted common neighbours, each object counted among those it is a neighbour of. -/
theorem C255_simhubIN_formula (w : World ℝ) {n : ℕ} (D : Fin n → Fin n → XR ℝ) (s : ℕ) (h1 : 1 ≤ s) (hs : s < n) (rd : Bool)
    (nJobs : ℤ) :
    ∃ N : Fin n → Finset (Fin n),
      (∀ i, Spec.IsHood (Spec.nearer "distance") Finset.univ (Spec.selfLast "distance" D i) s (N i)) ∧
      simhubIN w (.mat false n n D) none none s rd nJobs =
        .ok ⟨n, n, fun i j => .fin (Spec.orDistance rd (if i = j then 1 else
          Spec.simhub n s (Spec.occurrenceOrSelf N) (fun _ => 1) 1 (N i) (N j)))⟩ := by
  refine ⟨fun i => (squareSel w D s i).toFinset, squareSel_floats w D s hs, ?_⟩
  have hnorm : (s : ℝ) * Real.log n ≠ 0 :=
    mul_ne_zero (Nat.cast_ne_zero.2 (by omega)) (log_pos_of (by omega)).ne'
  rw [simhubIN_square, log_fin (by omega)]
  simp only [Int.cast_natCast, XR.mul]
  rw [shiFinish_none_fin (fun i j => ∑ c ∈ (squareSel w D s i).toFinset ∩ (squareSel w D s j).toFinset,
    Real.log ((n : ℝ) / (Spec.occurrenceOrSelf (fun i => (squareSel w D s i).toFinset) c))) _ ?_ _ hnorm]
  · unfold Spec.simhub
    simp only [mul_one]
  · intro i j
    refine shared_mark _ i j _ _ fun c => ?_
    have hocc : occIN (markSerial (squareSel w D s)) c =
        Spec.occurrenceOrSelf (fun i => (squareSel w D s i).toFinset) c := by
      rw [occIN_mark]
      unfold Spec.occurrenceOrSelf
      congr 1
      ext i
      simp only [Finset.mem_filter, Finset.mem_univ, true_and, i.isLt, Fin.ext_iff]
    rw [hocc, informativeness_fin (by omega) (occurrenceOrSelf_bounds _ _).1]

/-- **C255** for `simhubIN`: any floats give symmetric numbers in `[0, 1]` with the right diagonal. -/
theorem C255_simhubIN_partial (w : World ℝ) {n : ℕ} (D : Fin n → Fin n → XR ℝ) (s : ℕ) (h1 : 1 ≤ s) (hs : s < n) (rd : Bool)
    (nJobs : ℤ) :
    ∃ v : Fin n → Fin n → ℝ,
      simhubIN w (.mat false n n D) none none s rd nJobs = .ok ⟨n, n, fun i j => .fin (v i j)⟩ ∧
      (∀ i j, v i j = v j i) ∧ (∀ i j, 0 ≤ v i j ∧ v i j ≤ 1) ∧ ∀ i, v i i = if rd then 0 else 1 := by
  obtain ⟨N, hN, h⟩ := C255_simhubIN_formula w D s h1 hs rd nJobs
  refine ⟨_, h, ?_, ?_, ?_⟩
  · intro i j
    by_cases hij : i = j
    · simp [hij]
    · rw [if_neg hij, if_neg (Ne.symm hij), simhub_symm]
  · intro i j
    by_cases hij : i = j
    · rw [if_pos hij]; exact orDistance_bounds rd 1 zero_le_one le_rfl
    · rw [if_neg hij]
      exact orDistance_bounds rd _
        (simhub_nonneg (by omega) h1 _ (occurrenceOrSelf_bounds N) _ 1 one_pos (fun _ => zero_le_one) _ _)
        (simhub_le_one (by omega) h1 _ (occurrenceOrSelf_bounds N) _ 1 one_pos (fun _ => le_rfl) _ _ (hN i).card)
  · intro i
    rw [if_pos rfl]
    cases rd <;> simp [Spec.orDistance]

/-- `simhub` without labels for all floats: here an object counts one more than those it is a neighbour of, even if it is one of them. -/
theorem C255_simhub_formula (w : World ℝ) {n : ℕ} (D : Fin n → Fin n → XR ℝ) (s : ℕ) (h1 : 1 ≤ s) (hs : s < n) (rd : Bool)
    (vu : ℤ) :
    simhub w (.mat false n n D) none none none s rd vu =
      .ok ⟨n, n, fun i j => .fin (Spec.orDistance rd (if i = j then 1 else
        Spec.simhub n s (Spec.occurrence Finset.univ fun i => (squareSel w D s i).toFinset) (fun _ => 1) 1
          (squareSel w D s i).toFinset (squareSel w D s j).toFinset))⟩ := by
  have hnorm : (s : ℝ) * Real.log n ≠ 0 :=
    mul_ne_zero (Nat.cast_ne_zero.2 (by omega)) (log_pos_of (by omega)).ne'
  rw [simhub_square w D s (by omega), log_fin (by omega)]
  simp only [Int.cast_natCast, XR.mul]
  rw [shiFinish_none_fin (fun i j => ∑ c ∈ (squareSel w D s i).toFinset ∩ (squareSel w D s j).toFinset,
    Real.log ((n : ℝ) / (Spec.occurrence Finset.univ (fun i => (squareSel w D s i).toFinset) c))) _ ?_ _ hnorm]
  · unfold Spec.simhub
    simp only [mul_one]
  · intro i j
    refine shared_mark _ i j _ _ fun c => ?_
    rw [occ_square, informativeness_fin (by omega) (occurrence_pos _ _ _)]
    simp [XR.mul]

/-- **C255** for `simhub`, the part which holds: similarities are at most one and not below `-log (1 + 1/n) / log n`, which is reached
(`C255_simhub_violated`). -/
theorem C255_simhub_partial (w : World ℝ) {n : ℕ} (D : Fin n → Fin n → XR ℝ) (s : ℕ) (h1 : 1 ≤ s) (hs : s < n) (vu : ℤ) :
    ∃ v : Fin n → Fin n → ℝ,
      simhub w (.mat false n n D) none none none s false vu = .ok ⟨n, n, fun i j => .fin (v i j)⟩ ∧
      (∀ i j, v i j = v j i) ∧ (∀ i, v i i = 1) ∧
      ∀ i j, Real.log ((n : ℝ) / (n + 1)) / Real.log n ≤ v i j ∧ v i j ≤ 1 := by
  have hn1 : 1 < n := by omega
  have hlog := log_pos_of hn1
  have hn0 : (0 : ℝ) < n := by exact_mod_cast (by omega : 0 < n)
  have hs0 : (0 : ℝ) < s := by exact_mod_cast h1
  have hneg : Real.log ((n : ℝ) / (n + 1)) ≤ 0 := Real.log_nonpos (by positivity) ((div_le_one (by positivity)).2 (by linarith))
  refine ⟨_, C255_simhub_formula w D s h1 hs false vu, ?_, ?_, ?_⟩
  · intro i j
    by_cases hij : i = j
    · simp [hij]
    · rw [if_neg hij, if_neg (Ne.symm hij), simhub_symm]
  · intro i
    rw [if_pos rfl]; simp [Spec.orDistance]
  · intro i j
    simp only [Spec.orDistance, Bool.false_eq_true, if_false]
    by_cases hij : i = j
    · rw [if_pos hij]
      exact ⟨le_trans (div_nonpos_of_nonpos_of_nonneg hneg hlog.le) zero_le_one, le_rfl⟩
    rw [if_neg hij]
    set N : Fin n → Finset (Fin n) := fun i => (squareSel w D s i).toFinset with hN
    have hcard : ((N i ∩ N j).card : ℝ) ≤ s := by
      rw [← (squareSel_floats w D s hs i).card]
      exact_mod_cast Finset.card_le_card Finset.inter_subset_left
    have hocc : ∀ c, Real.log ((n : ℝ) / (n + 1)) ≤ Real.log ((n : ℝ) / Spec.occurrence Finset.univ N c) ∧
        Real.log ((n : ℝ) / Spec.occurrence Finset.univ N c) ≤ Real.log n := by
      intro c
      have hpos : (0 : ℝ) < Spec.occurrence Finset.univ N c := by exact_mod_cast occurrence_pos _ _ _
      have hge : (1 : ℝ) ≤ Spec.occurrence Finset.univ N c := by exact_mod_cast occurrence_pos Finset.univ N c
      have hle : (Spec.occurrence Finset.univ N c : ℝ) ≤ n + 1 := by
        have : Spec.occurrence Finset.univ N c ≤ n + 1 := by
          unfold Spec.occurrence
          exact Nat.succ_le_succ (le_trans (Finset.card_le_univ _) (by simp))
        exact_mod_cast this
      exact ⟨Real.log_le_log (by positivity) (div_le_div_of_nonneg_left hn0.le hpos hle),
        Real.log_le_log (by positivity) (div_le_self hn0.le hge)⟩
    unfold Spec.simhub
    simp only [mul_one]
    constructor
    · rw [div_le_div_iff₀ hlog (by positivity)]
      have hsum : ((N i ∩ N j).card : ℝ) * Real.log ((n : ℝ) / (n + 1)) ≤
          ∑ x ∈ N i ∩ N j, Real.log ((n : ℝ) / Spec.occurrence Finset.univ N x) := by
        rw [← nsmul_eq_mul, ← Finset.sum_const]
        exact Finset.sum_le_sum fun x _ => (hocc x).1
      have hmul : (s : ℝ) * Real.log ((n : ℝ) / (n + 1)) ≤ ((N i ∩ N j).card : ℝ) * Real.log ((n : ℝ) / (n + 1)) :=
        mul_le_mul_of_nonpos_right hcard hneg
      nlinarith [hmul.trans hsum]
    · rw [div_le_one (by positivity)]
      calc ∑ x ∈ N i ∩ N j, Real.log ((n : ℝ) / Spec.occurrence Finset.univ N x)
          ≤ ∑ x ∈ N i ∩ N j, Real.log n := Finset.sum_le_sum fun x _ => (hocc x).2
        _ = ((N i ∩ N j).card : ℝ) * Real.log n := by rw [Finset.sum_const, nsmul_eq_mul]
        _ ≤ s * Real.log n := mul_le_mul_of_nonneg_right hcard hlog.le

/-- **C255** is violated by `simhub`: objects which cannot reach each other have a negative similarity, i.e. a distance above one,
whatever the sort algorithm; `simhubIN` gives distance one. -/
theorem C255_simhub_violated (w : World ℝ) {n : ℕ} (s : ℕ) (h1 : 1 ≤ s) (hs : s < n) (vu nJobs : ℤ) :
    ∃ v : ℝ, 1 < v ∧
      simhub w (.mat false n n fun i j => if i = j then .fin 0 else .pinf) none none none s true vu =
        .ok ⟨n, n, fun i j => .fin (if i = j then 0 else v)⟩ ∧
      simhubIN w (.mat false n n fun i j => if i = j then .fin 0 else .pinf) none none s true nJobs =
        .ok ⟨n, n, fun i j => .fin (if i = j then 0 else 1)⟩ := by
  have hn1 : 1 < n := by omega
  have hlog := log_pos_of hn1
  have hn0 : (0 : ℝ) < n := by exact_mod_cast (by omega : 0 < n)
  have hs0 : (0 : ℝ) < s := by exact_mod_cast h1
  let D : Fin n → Fin n → XR ℝ := fun i j => if i = j then .fin 0 else .pinf
  have hrow : ∀ i, Np.fillDiagonal D .pinf i = fun _ => .pinf := by
    intro i
    funext j
    unfold Np.fillDiagonal
    by_cases hij : i = j
    · rw [if_pos (congrArg Fin.val hij)]
    · rw [if_neg (fun h : i.val = j.val => hij (Fin.ext h))]
      exact if_neg hij
  let S : List (Fin n) := top "distance" (w.srt.run fun _ : Fin n => (.pinf : XR ℝ)) s
  have hsel : ∀ i, squareSel w D s i = S := by
    intro i
    unfold squareSel
    rw [hrow]
  have hcard : S.toFinset.card = s := by
    have := (squareSel_floats w D s hs ⟨0, by omega⟩).card
    rwa [hsel] at this
  have hneg : Real.log ((n : ℝ) / (n + 1)) < 0 :=
    Real.log_neg (by positivity) ((div_lt_one (by positivity)).2 (by linarith))
  have hsumc : ∀ r : ℝ, ∑ x ∈ S.toFinset, r = s * r := by
    intro r
    rw [Finset.sum_const, hcard, nsmul_eq_mul]
  refine ⟨1 - Real.log ((n : ℝ) / (n + 1)) / Real.log n, ?_, ?_, ?_⟩
  · have := div_neg_of_neg_of_pos hneg hlog
    linarith
  · have h := C255_simhub_formula w D s h1 hs true vu
    refine h.trans ?_
    congr 3
    funext i j
    simp only [hsel, Spec.orDistance, if_true]
    by_cases hij : i = j
    · simp [hij]
    · rw [if_neg hij, if_neg hij]
      congr 2
      unfold Spec.simhub
      have hocc : ∀ x ∈ S.toFinset, Real.log ((n : ℝ) / (Spec.occurrence Finset.univ (fun _ : Fin n => S.toFinset) x)) * 1 =
          Real.log ((n : ℝ) / (n + 1)) := by
        intro x hx
        unfold Spec.occurrence
        rw [Finset.filter_true_of_mem (fun _ _ => hx)]
        simp
      rw [Finset.inter_self, Finset.sum_congr rfl hocc, hsumc, mul_one, mul_div_mul_left _ _ hs0.ne']
  · refine (simhubIN_square w D s true nJobs).trans ?_
    rw [log_fin (by omega)]
    simp only [Int.cast_natCast, XR.mul]
    rw [shiFinish_none_fin (fun i j => 0) _ ?_ _ (mul_ne_zero hs0.ne' hlog.ne')]
    · congr 3
      funext i j
      simp only [Spec.orDistance, if_true, zero_div]
      by_cases hij : i = j
      · simp [hij]
      · rw [if_neg hij, if_neg hij, sub_zero]
    · intro i j
      rw [shared_mark _ i j _ (fun c => Real.log ((n : ℝ) / (Spec.occurrenceOrSelf (fun i => (squareSel w D s i).toFinset) c)))]
      · congr 1
        refine Finset.sum_eq_zero fun x hx => ?_
        rw [hsel, hsel, Finset.inter_self] at hx
        have : Spec.occurrenceOrSelf (fun i => (squareSel w D s i).toFinset) x = n := by
          unfold Spec.occurrenceOrSelf
          rw [Finset.filter_true_of_mem (fun i _ => Or.inr (by beta_reduce; rw [hsel]; exact hx))]
          simp
        rw [this, div_self hn0.ne', Real.log_one]
      · intro c
        have hocc : occIN (markSerial (squareSel w D s)) c =
            Spec.occurrenceOrSelf (fun i => (squareSel w D s i).toFinset) c := by
          rw [occIN_mark]
          unfold Spec.occurrenceOrSelf
          congr 1
          ext i
          simp only [Finset.mem_filter, Finset.mem_univ, true_and, i.isLt, Fin.ext_iff]
        rw [hocc, informativeness_fin (by omega) (occurrenceOrSelf_bounds _ _).1]

/-- **C76**: `simhub` accepts exactly the neighbourhood sizes from one to the number of other objects, `simhubIN` every integer. -/
theorem C76_exact (w : World ℝ) {n : ℕ} (D : Fin n → Fin n → XR ℝ) (s : ℤ) (rd : Bool) (jobs : ℤ) :
    ((∃ r, simhub w (.mat false n n D) none none none s rd jobs = .ok r) ↔ 1 ≤ s ∧ s ≤ n - 1) ∧
      ∃ r, simhubIN w (.mat false n n D) none none s rd jobs = .ok r := by
  refine ⟨⟨fun ⟨r, hr⟩ => ?_, fun h => ⟨_, simhub_square w D s (by omega) rd jobs⟩⟩, ⟨_, simhubIN_square w D s rd jobs⟩⟩
  by_contra h
  rw [C76_simhub_partial w D none none s (by omega) rd jobs] at hr
  cases hr

/-- Two unconnected pairs, and an object without any distances. -/
example (w : World ℝ) : ∃ v : Fin 5 → Fin 5 → ℝ,
    simhubIN w (.mat false 5 5 ![![.fin 0, .fin 1, .pinf, .pinf, .nan], ![.fin 1, .fin 0, .pinf, .pinf, .nan],
      ![.pinf, .pinf, .fin 0, .fin 2, .nan], ![.pinf, .pinf, .fin 2, .fin 0, .nan], ![.nan, .nan, .nan, .nan, .fin 0]])
      none none (2 : ℕ) true 4 = .ok ⟨5, 5, fun i j => .fin (v i j)⟩ ∧ ∀ i j, 0 ≤ v i j ∧ v i j ≤ 1 := by
  obtain ⟨v, h, _, hb, _⟩ := C255_simhubIN_partial w
    ![![.fin 0, .fin 1, .pinf, .pinf, .nan], ![.fin 1, .fin 0, .pinf, .pinf, .nan],
      ![.pinf, .pinf, .fin 0, .fin 2, .nan], ![.pinf, .pinf, .fin 2, .fin 0, .nan], ![.nan, .nan, .nan, .nan, .fin 0]]
    2 (by omega) (by omega) true 4
  exact ⟨v, h, hb⟩

/-- Three unconnected objects. -/
example (w : World ℝ) := C255_simhub_violated w (n := 3) 2 (by omega) (by omega) 0 1

end HubToolbox.SNN
