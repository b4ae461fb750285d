import Verif.Rounding.HubHood
import Verif.HubClass.Invariance
import Verif.HubClass.Examples

/-!
# C279: statistics of the class `Hubness` in double precision
-/

set_option autoImplicit false

namespace HubToolbox.Rounding

open HubToolbox Ieee

/-- The Robin Hood index in double precision. -/
theorem hood_near {Nk : List ℕ} (h : HubSizes Nk) (L : SkewLib ℝ) (hL : L.Near) :
    ∃ q, (double.rounding ℝ).hood L Nk = .fin q ∧ 0 ≤ q ∧ q ≤ 1 ∧ |q - HubClass.hood Nk| ≤ ((Nk.length : ℝ) + 5) * u ∧
      (q = 0 ↔ (HubClass.hood Nk : ℝ) = 0) := by
  have hu := u_pos
  have hn : (0 : ℝ) < Nk.length := by exact_mod_cast h.length_pos
  have hsum : ∑ i : Fin Nk.length, (Nk.get i : ℝ) = ((Nk.sum : ℕ) : ℝ) := by
    have := HubClass.sum_map_eq (F := ℝ) Nk (fun v => (v : ℝ))
    rw [HubClass.cast_sum_eq]
  have hs : (0 : ℝ) < ((Nk.sum : ℕ) : ℝ) := by exact_mod_cast h.sum_pos
  have hle : (HubClass.hood Nk : ℝ) ≤ 1 - 1 / Nk.length := by
    rw [HubClass.hood_eq]
    refine (HubClass.hoover_le_gini _ h.length_pos (by rw [hsum]; exact hs)).trans ?_
    refine (HubClass.gini_le_of_bound _ h.length_pos (by rw [hsum]; exact hs) ((Nk.sum : ℕ) : ℝ) (fun _ => Nat.cast_nonneg _)
      (fun i => by exact_mod_cast mem_le_sum (List.get_mem Nk i))).trans_eq ?_
    rw [hsum]
    field_simp
  have hgap : ((Nk.length : ℝ) + 5) * u ≤ 1 / Nk.length := by
    rw [le_div_iff₀ hn]
    have hl25 : (Nk.length : ℝ) ≤ 2 ^ 25 := by exact_mod_cast h.length_le
    have t : ((Nk.length : ℝ) + 5) * Nk.length ≤ (2 ^ 25 + 5) * 2 ^ 25 := mul_le_mul (by linarith) hl25 hn.le (by norm_num)
    calc ((Nk.length : ℝ) + 5) * u * Nk.length = ((Nk.length : ℝ) + 5) * Nk.length * u := by ring
      _ ≤ (2 ^ 25 + 5) * 2 ^ 25 * u := mul_le_mul_of_nonneg_right t hu.le
      _ ≤ 1 := by rw [u_eq]; norm_num
  by_cases heq : ∃ c, ∀ v ∈ Nk, v = c
  · obtain ⟨c, hc⟩ := heq
    have e : (HubClass.hood Nk : ℝ) = 0 := by
      have h2 : Nk.sum = Nk.length * c := by
        rw [List.eq_replicate_iff.2 ⟨rfl, hc⟩]
        simp
      have h3 : ((Nk.sum : ℕ) : ℝ) / Nk.length = c := by
        rw [h2, Nat.cast_mul, mul_div_cancel_left₀ _ hn.ne']
      rw [hood_exact, h3, List.map_congr_left (g := fun _ => (0 : ℝ)) (fun v hv => by rw [hc v hv, sub_self, abs_zero]), list_sum_const, mul_zero,
        zero_div]
    refine ⟨0, hood_equal h L hL hc, le_rfl, zero_le_one, ?_, by rw [e]⟩
    rw [e, sub_zero, abs_zero]
    positivity
  · have hne : ∃ a ∈ Nk, ∃ b ∈ Nk, a ≠ b := by
      push Not at heq
      obtain ⟨a, ha⟩ := List.exists_mem_of_length_pos h.length_pos
      obtain ⟨b, hb, hba⟩ := heq a
      exact ⟨b, hb, a, ha, hba⟩
    have hp : (0 : ℝ) < 1 / Nk.length := by positivity
    obtain ⟨q, h1, h2, h3⟩ := hood_unequal h L hL hne (by linarith)
    refine ⟨q, h1, h2.le, ?_, h3, ?_⟩
    · have := (abs_le.1 h3).2
      linarith
    · refine ⟨fun e => absurd e h2.ne', fun e => ?_⟩
      obtain ⟨a, ha, b, hb, hab⟩ := hne
      rw [HubClass.hood_eq] at e
      obtain ⟨i, rfl⟩ := List.get_of_mem ha
      obtain ⟨j, rfl⟩ := List.get_of_mem hb
      exact absurd (by exact_mod_cast HubClass.hoover_zero _ h.length_pos (by rw [hsum]; exact hs) e i j) hab

end HubToolbox.Rounding

namespace HubToolbox.HubClass

open HubToolbox Ieee Rounding

section
variable {K : Type} [Field K] [LinearOrder K] (w : World K) (P : Params ℝ) (k : ℕ) (hP : P.k = some (k : ℤ)) (hk : 1 ≤ k) (bs : ℕ)
  (shuffle hasSelf : Bool) (X : Data K) (hX : X.Canonical) (hn : 0 < X.nTest) (fit : Fit ℝ) (h : fitTransform w P bs shuffle hasSelf X = .ok fit)
include hP hk hX hn h

theorem fit_counts : fit.kOcc.length = X.nTrain ∧ fit.kOcc.sum = X.nTest * k ∧ 0 < X.nTrain ∧ fit = stats P.hubSize k X.nTest X.nTrain fit.lists := by
  obtain ⟨rows, hinj, hd⟩ := C09_statistics w P k hP hk bs shuffle hasSelf X hX hn fit h
  have hm : 0 < X.nTrain := (rows ⟨0, hn⟩ ⟨0, hk⟩).pos
  refine ⟨by rw [hd.kOcc, List.length_ofFn], ?_, hm, ?_⟩
  · rw [hd.kOcc, List.sum_ofFn]
    exact sum_occurrences rows hinj
  · unfold fitTransform at h
    rw [hP] at h
    simp only [Int.toNat_natCast] at h
    cases hl : fitLists w P.metric P.nJobs k bs shuffle hasSelf X with
    | error e => rw [hl] at h; cases h
    | ok r =>
      rw [hl] at h
      obtain ⟨rows, hinj, rfl⟩ := fitLists_inv w P.metric P.nJobs k bs shuffle hasSelf X hX hl
      cases h
      rfl

theorem fit_sizes (hm : X.nTrain ≤ 2 ^ 25) (hp : 2 * X.nTrain * (X.nTest * k) ≤ 2 ^ 53) : HubSizes fit.kOcc := by
  obtain ⟨c1, c2, c3, -⟩ := fit_counts w P k hP hk bs shuffle hasSelf X hX hn fit h
  refine ⟨c1 ▸ c3, c1 ▸ hm, ?_, ?_⟩
  · rw [c2]
    exact Nat.mul_pos hn hk
  · rw [c1, c2]
    exact hp

/-- **C279**: `Hubness.fit_transform` computes Gini index, antihub occurrence and groupie ratio in double precision with a single rounding of the
documented value; the Robin Hood index lies in the unit interval within `(n + 5) · 2⁻⁵³` of the documented value for `n` training objects, and is zero
exactly if the documented value is. -/
theorem C279 (L : SkewLib ℝ) (hL : L.Near) (hm : X.nTrain ≤ 2 ^ 25) (hp : 2 * X.nTrain * (X.nTest * k) ≤ 2 ^ 53) :
    (double.rounding ℝ).gini fit.kOcc = double.round fit.gini ∧
    (double.rounding ℝ).antihubOccurrence fit.kOcc = double.round fit.antihubOccurrence ∧
    (double.rounding ℝ).groupie fit.kOcc X.nTest = double.round fit.groupie ∧
    ∃ q : ℝ, (double.rounding ℝ).hood L fit.kOcc = .fin q ∧ 0 ≤ q ∧ q ≤ 1 ∧ |q - fit.hood| ≤ ((X.nTrain : ℝ) + 5) * (1 / 2 ^ 53) ∧
      (q = 0 ↔ fit.hood = 0) := by
  obtain ⟨c1, c2, c3, c4⟩ := fit_counts w P k hP hk bs shuffle hasSelf X hX hn fit h
  have hsz := fit_sizes w P k hP hk bs shuffle hasSelf X hX hn fit h hm hp
  have g1 : fit.gini = HubClass.gini fit.kOcc := by rw [c4]; rfl
  have g2 : fit.hood = HubClass.hood fit.kOcc := by rw [c4]; rfl
  have g3 : fit.antihubOccurrence = (antihubs (F := ℝ) fit.kOcc).2 := by rw [c4]; rfl
  have g4 : fit.groupie = HubClass.groupie fit.kOcc X.nTest := by rw [c4]; rfl
  have hs52 := hsz.sum_le
  refine ⟨?_, ?_, ?_, ?_⟩
  · rw [g1]
    exact gini_round hsz.length_pos hsz.sum_pos hsz.product
  · rw [g3]
    rfl
  · rw [g4]
    refine quot_nat ?_ ?_ hn.ne'
    · have : fit.kOcc.foldr max 0 ≤ fit.kOcc.sum := by
        generalize fit.kOcc = l
        induction l with
        | nil => simp
        | cons a t ih => simp only [List.foldr_cons, List.sum_cons]; omega
      omega
    · have : X.nTest * 1 ≤ X.nTest * k := Nat.mul_le_mul_left _ hk
      omega
  · obtain ⟨q, q1, q2, q3, q4, q5⟩ := hood_near hsz L hL
    refine ⟨q, q1, q2, q3, ?_, by rw [g2]; exact q5⟩
    rw [g2]
    refine q4.trans_eq ?_
    rw [c1, u_eq]
    norm_num

/-- **C279** (hubs): with a hub size of moderate size, every hub is reported, and every reported hub occurs at least `(1 − 2⁻⁵³) · hub_size · k` times; the
occurrence of the reported hubs lies in the unit interval. For an integer hub size, the reported hubs are the hubs, and their occurrence is within
`3 · 2⁻⁵³` of the documented value. -/
theorem C279_hubs (h0 : 1 / 2 ^ 50 ≤ P.hubSize) (h1 : P.hubSize * k ≤ 2 ^ 60) (hm : X.nTrain ≤ 2 ^ 25)
    (hp : 2 * X.nTrain * (X.nTest * k) ≤ 2 ^ 53) :
    (∀ j ∈ fit.hubs, j ∈ (double.rounding ℝ).hubs P.hubSize k fit.kOcc) ∧
    (∀ j ∈ (double.rounding ℝ).hubs P.hubSize k fit.kOcc, j < X.nTrain ∧ (1 - 1 / 2 ^ 53) * (P.hubSize * k) ≤ fit.kOcc.getD j 0) ∧
    ∃ q : ℝ, (double.rounding ℝ).hubOccurrence P.hubSize k fit.kOcc X.nTest = .fin q ∧ 0 ≤ q ∧ q ≤ 1 ∧
      ∀ z : ℕ, P.hubSize = z → z * k ≤ 2 ^ 53 → (double.rounding ℝ).hubs P.hubSize k fit.kOcc = fit.hubs ∧
        |q - fit.hubOccurrence| ≤ 3 * (1 / 2 ^ 53) := by
  obtain ⟨c1, c2, c3, c4⟩ := fit_counts w P k hP hk bs shuffle hasSelf X hX hn fit h
  have hsz := fit_sizes w P k hP hk bs shuffle hasSelf X hX hn fit h hm hp
  have g1 : fit.hubs = argwhere fit.kOcc (fun x => decide (P.hubSize * k ≤ (x : ℝ))) := by rw [c4]; rfl
  have g2 : fit.hubOccurrence = (((fit.hubs.map (fun (j : ℕ) => fit.kOcc.getD j 0)).sum : ℕ) : ℝ) / k / X.nTest := by rw [c4]; rfl
  have hs52 := hsz.sum_le
  have hu := u_pos
  have hut := u_le_50
  have hu' : u = 1 / 2 ^ 53 := by rw [u_eq]; norm_num
  have hk52 : k ≤ 2 ^ 52 := by
    have : 1 * k ≤ X.nTest * k := Nat.mul_le_mul_right _ hn
    omega
  have hn52 : X.nTest ≤ 2 ^ 52 := by
    have : X.nTest * 1 ≤ X.nTest * k := Nat.mul_le_mul_left _ hk
    omega
  have hkR : (1 : ℝ) ≤ k := by exact_mod_cast hk
  have hnR : (1 : ℝ) ≤ X.nTest := by exact_mod_cast hn
  have hkf : (double.rounding ℝ).ofNat k = .fin (k : ℝ) := ofNat_exact (hk52.trans (by norm_num))
  have hnf : (double.rounding ℝ).ofNat X.nTest = .fin (X.nTest : ℝ) := ofNat_exact (hn52.trans (by norm_num))
  have hcount : ∀ j, (double.rounding ℝ).ofNat (fit.kOcc.getD j 0) = .fin ((fit.kOcc.getD j 0 : ℕ) : ℝ) := by
    intro j
    refine ofNat_exact ?_
    by_cases hj : j < fit.kOcc.length
    · rw [List.getD_eq_getElem _ _ hj]
      exact (hsz.mem_le (List.getElem_mem hj)).trans (by norm_num)
    · rw [List.getD_eq_default _ _ (not_lt.1 hj)]
      norm_num
  have hthr : (double.rounding ℝ).mul (.fin P.hubSize) ((double.rounding ℝ).ofNat k) = double.round (P.hubSize * k) := by
    rw [hkf]
    rfl
  have hpos : (1 / 2 ^ 50 : ℝ) ≤ P.hubSize * k := by
    refine h0.trans (le_mul_of_one_le_right ?_ hkR)
    refine le_trans ?_ h0
    norm_num
  have hpos' : 0 < P.hubSize * k := lt_of_lt_of_le (by norm_num) hpos
  obtain ⟨t, t1, t2, t3⟩ := rel_moderate (x := P.hubSize * k) (Or.inr (by
      rw [abs_of_pos hpos']
      refine le_trans ?_ hpos
      norm_num)) (by rw [abs_of_pos hpos']; exact h1)
  rw [abs_of_pos hpos'] at t3
  have hmem : ∀ j, j ∈ (double.rounding ℝ).hubs P.hubSize k fit.kOcc ↔ j < X.nTrain ∧ t ≤ ((fit.kOcc.getD j 0 : ℕ) : ℝ) := by
    intro j
    unfold Rounding.hubs argwhere
    rw [List.mem_filter, List.mem_range, c1, hthr, t1]
    beta_reduce
    rw [hcount j]
    simp only [decide_eq_true_eq]
    exact Iff.rfl
  have hmem' : ∀ j, j ∈ fit.hubs ↔ j < X.nTrain ∧ P.hubSize * k ≤ ((fit.kOcc.getD j 0 : ℕ) : ℝ) := by
    intro j
    rw [g1]
    unfold argwhere
    rw [List.mem_filter, List.mem_range, c1]
    simp only [decide_eq_true_eq]
  refine ⟨?_, ?_, ?_⟩
  · intro j hj
    obtain ⟨j1, j2⟩ := (hmem' j).1 hj
    refine (hmem j).2 ⟨j1, ?_⟩
    have := (double.rounding ℝ).mono _ _ j2
    have e1 : (double.rounding ℝ).rnd (P.hubSize * k) = .fin t := t1
    have e2 : (double.rounding ℝ).rnd ((fit.kOcc.getD j 0 : ℕ) : ℝ) = .fin ((fit.kOcc.getD j 0 : ℕ) : ℝ) := hcount j
    rw [e1, e2] at this
    exact this
  · intro j hj
    obtain ⟨j1, j2⟩ := (hmem j).1 hj
    refine ⟨j1, ?_⟩
    have := (abs_le.1 t3).1
    rw [← hu']
    linarith
  · set T := (((double.rounding ℝ).hubs P.hubSize k fit.kOcc).map (fun (j : ℕ) => fit.kOcc.getD j 0)).sum with hT
    have hTle : T ≤ X.nTest * k := by
      rw [hT, ← c2]
      unfold Rounding.hubs
      rw [argwhere_map]
      exact List.Sublist.sum_le_sum List.filter_sublist (fun _ _ => Nat.zero_le _)
    have hTf : (double.rounding ℝ).ofNat T = .fin (T : ℝ) := ofNat_exact (by omega)
    have hTR : (T : ℝ) ≤ X.nTest * k := by exact_mod_cast hTle
    have hT0 : (0 : ℝ) ≤ T := Nat.cast_nonneg _
    have hk0 : (k : ℝ) ≠ 0 := by linarith
    have hn0 : (X.nTest : ℝ) ≠ 0 := by linarith
    have hdiv : (T : ℝ) / k ≤ X.nTest := by
      rw [div_le_iff₀ (by linarith)]
      exact hTR
    have hdiv0 : 0 ≤ (T : ℝ) / k := by positivity
    have hTcase : (T : ℝ) = 0 ∨ (1 : ℝ) ≤ T := by
      rcases Nat.eq_zero_or_pos T with e | e
      · exact Or.inl (by rw [e]; norm_num)
      · exact Or.inr (by exact_mod_cast e)
    have hk52R : (k : ℝ) ≤ 2 ^ 52 := by exact_mod_cast hk52
    have hn52R : (X.nTest : ℝ) ≤ 2 ^ 52 := by exact_mod_cast hn52
    have hnk52 : (X.nTest : ℝ) * k ≤ 2 ^ 52 := by
      have : X.nTest * k ≤ 2 ^ 52 := by omega
      exact_mod_cast this
    obtain ⟨a, a1, a2, a3⟩ := rel_moderate (x := (T : ℝ) / k) (by
        rcases hTcase with e | e
        · exact Or.inl (by rw [e, zero_div])
        · refine Or.inr ?_
          rw [abs_of_nonneg hdiv0]
          have : (1 : ℝ) / 2 ^ 52 ≤ T / k := div_le_div₀ hT0 e (by linarith) hk52R
          refine le_trans ?_ this
          norm_num) (by
        rw [abs_of_nonneg hdiv0]
        refine hdiv.trans (hn52R.trans ?_)
        norm_num)
    rw [abs_of_nonneg hdiv0] at a3
    have ha0 : 0 ≤ a := by
      have := Rounding.nonneg (R := double.rounding ℝ) hdiv0
      have e : (double.rounding ℝ).rnd ((T : ℝ) / k) = .fin a := a1
      rw [e] at this
      exact this
    have han : a ≤ X.nTest := by
      have := (double.rounding ℝ).mono _ _ hdiv
      have e : (double.rounding ℝ).rnd ((T : ℝ) / k) = .fin a := a1
      have e2 : (double.rounding ℝ).rnd (X.nTest : ℝ) = .fin (X.nTest : ℝ) := hnf
      rw [e, e2] at this
      exact this
    have hq0 : 0 ≤ a / X.nTest := by positivity
    have hq1 : a / X.nTest ≤ 1 := by
      rw [div_le_one (by linarith)]
      exact han
    obtain ⟨q, q1, q2, q3⟩ := Rounding.unit (R := double.rounding ℝ) hq0 hq1
    refine ⟨q, ?_, q2, q3, ?_⟩
    · unfold Rounding.hubOccurrence
      rw [← hT, hTf, hkf, hnf]
      have e1 : (double.rounding ℝ).div (.fin (T : ℝ)) (.fin (k : ℝ)) = .fin a := by
        unfold div XR.div
        simp only [hk0, if_false]
        exact a1
      rw [e1]
      unfold div XR.div
      simp only [hn0, if_false]
      exact q1
    · intro z hz hzk
      have ht : t = P.hubSize * k := by
        have e : P.hubSize * k = ((z * k : ℕ) : ℝ) := by rw [hz, Nat.cast_mul]
        have e2 := ofNat_exact hzk
        have e3 : double.round (((z * k : ℕ) : ℝ)) = .fin (((z * k : ℕ) : ℝ)) := e2
        rw [← e, t1] at e3
        exact XR.fin.inj e3
      have hh : (double.rounding ℝ).hubs P.hubSize k fit.kOcc = fit.hubs := by
        rw [g1]
        unfold Rounding.hubs argwhere
        refine List.filter_congr fun j _ => ?_
        rw [hthr, t1]
        beta_reduce
        rw [hcount j, ht]
        exact decide_eq_decide.2 Iff.rfl
      refine ⟨hh, ?_⟩
      rw [g2, ← hh, ← hT, ← hu']
      have b1 : |a / X.nTest - (T : ℝ) / k / X.nTest| ≤ u := by
        rw [← sub_div, abs_div, abs_of_nonneg (show (0 : ℝ) ≤ X.nTest by linarith), div_le_iff₀ (by linarith)]
        exact a3.trans (mul_le_mul_of_nonneg_left hdiv hu.le)
      have b2 : |q - a / X.nTest| ≤ u := by
        obtain ⟨y, y1, -, y3⟩ := rel_moderate (x := a / X.nTest) (by
          rcases hTcase with e | e
          · refine Or.inl ?_
            rw [e, zero_div, mul_zero, sub_zero] at a3
            rw [abs_nonpos_iff.1 a3, zero_div]
          · refine Or.inr ?_
            rw [abs_of_nonneg hq0]
            have c5 : (1 : ℝ) / 2 ^ 52 ≤ T / k / X.nTest := by
              rw [div_div, mul_comm]
              exact div_le_div₀ hT0 e (by positivity) hnk52
            have c6 := (abs_le.1 a3).1
            have c7 : u * ((T : ℝ) / k) ≤ 1 / 2 * (T / k) := mul_le_mul_of_nonneg_right (by norm_num at hut ⊢; linarith) hdiv0
            have c8 : 1 / 2 * ((T : ℝ) / k) / X.nTest ≤ a / X.nTest := div_le_div_of_nonneg_right (by linarith) (by linarith)
            rw [mul_div_assoc] at c8
            refine le_trans ?_ c8
            norm_num at c5 ⊢
            linarith) (by
          rw [abs_of_nonneg hq0]
          refine hq1.trans ?_
          norm_num)
        have e : (double.rounding ℝ).rnd (a / X.nTest) = .fin y := y1
        rw [q1] at e
        rw [XR.fin.inj e]
        rw [abs_of_nonneg hq0] at y3
        exact y3.trans (mul_le_of_le_one_right hu.le hq1)
      have b3 := abs_add_le (q - a / X.nTest) (a / X.nTest - (T : ℝ) / k / X.nTest)
      rw [sub_add_sub_cancel] at b3
      linarith

end

/-- Three points on a line, in the real numbers. -/
noncomputable def exPR : Params ℝ := ⟨some 1, 2, "precomputed", 1⟩

theorem lineD_fit_real (w : World ℚ) : ∃ fit : Fit ℝ, fitTransform w exPR 64 true true (.dense 3 3 exD false) = .ok fit := by
  obtain ⟨fit, rows, h, -⟩ := C12_partial w exPR 1 rfl 64 true 3 exD (by decide) (by decide +kernel)
  exact ⟨fit, h⟩

example (w : World ℚ) := C279 w exPR 1 rfl le_rfl 64 true true (.dense 3 3 exD false) (by simp [Data.Canonical]) (by decide) _
  (lineD_fit_real w).choose_spec SkewLib.rounded SkewLib.rounded_near (by decide) (by decide)

example (w : World ℚ) := C279_hubs w exPR 1 rfl le_rfl 64 true true (.dense 3 3 exD false) (by simp [Data.Canonical]) (by decide) _
  (lineD_fit_real w).choose_spec (by norm_num [exPR]) (by norm_num [exPR]) (by decide) (by decide)

end HubToolbox.HubClass
