import Verif.Rounding.Shi
import Verif.Rounding.AtkinsonProps

/-!
# C288: hubness-aware shared neighbours in double precision
-/

set_option autoImplicit false

namespace HubToolbox.Rounding

open HubToolbox Ieee SNN

section
variable (w : World ℝ) {n : ℕ} (D : Fin n → Fin n → XR ℝ) (L : ShiLib)

/-- Closed form for a square matrix. -/
theorem simhubIN_closed (R : Rounding ℝ) (s : ℤ) (rd : Bool) (nJobs : ℤ) :
    R.simhubIN L w (.mat false n n D) none none s rd nJobs =
      .ok (R.shiFinish (fun i j => R.shiShared L (markSerial (squareSel w D s) i) (markSerial (squareSel w D s) j)
        (fun c => R.shiWeight L n (occIN (markSerial (squareSel w D s)) c))) (R.mul (R.rnd (s : ℝ)) (L.log (R.ofNat n))) rd none) := by
  have hc : shiCheck (.mat false n n D) none = .ok (false, ⟨n, n, D, none⟩) := by
    unfold shiCheck PyMat.checkSquare
    simp only [dif_pos rfl]
    rfl
  unfold Rounding.simhubIN
  rw [hc]
  refine Eq.trans (b := if h : n ≤ n then _ else _) rfl ?_
  rw [dif_pos le_rfl]
  simp only [markParallel_eq, rowsParallel_eq, ite_self]
  refine Eq.trans (b := Except.ok _) rfl ?_
  congr 2
  funext i j
  rw [LS.fillRows_apply, if_pos (show i ∈ rowsOf (n := n) none from List.mem_finRange i)]
  unfold partner
  cases decide (n < 2000) <;> rfl

theorem simhub_closed (R : Rounding ℝ) (s : ℤ) (hs : 0 < s ∧ s < n) (rd : Bool) (vu : ℤ) :
    R.simhub L w (.mat false n n D) none none s rd vu =
      .ok (R.shiFinish (fun i j => R.shiShared L (markSerial (squareSel w D s) i) (markSerial (squareSel w D s) j)
        (fun c => R.mul (R.shiWeight L n (occ (markSerial (squareSel w D s)) c + 1)) (.fin 1))) (R.mul (R.rnd (s : ℝ)) (L.log (R.ofNat n))) rd none) := by
  have hc : shiCheck (.mat false n n D) none = .ok (false, ⟨n, n, D, none⟩) := by
    unfold shiCheck PyMat.checkSquare
    simp only [dif_pos rfl]
    rfl
  unfold Rounding.simhub
  rw [hc]
  refine Eq.trans (b := if ¬ (0 < s ∧ s < n) then _ else _) rfl ?_
  rw [if_neg (not_not.2 hs)]
  refine Eq.trans (b := if h : n ≤ n then _ else _) rfl ?_
  rw [dif_pos le_rfl]
  refine Eq.trans (b := Except.ok _) rfl ?_
  congr 2
  funext i j
  rw [LS.fillRows_apply, if_pos (show i ∈ rowsOf (n := n) none from List.mem_finRange i)]
  unfold partner
  cases decide (vu > 0 ∨ vu = 0 ∧ n < 2000) <;> rfl

variable (x : Fin n → Fin n → ℝ) (hD : ∀ i j, i ≠ j → D i j = .fin (x i j)) (s : ℕ) (h1 : 1 ≤ s) (hs : s < n) (hn : n ≤ 2 ^ 25) (hL : L.Near)
include hD h1 hs hn hL

/-- Similarity of one pair before conversion. -/
theorem shi_pair (i j : Fin n) : ∃ q : ℝ,
    (double.rounding ℝ).div ((double.rounding ℝ).shiShared L (markSerial (squareSel w D s) i) (markSerial (squareSel w D s) j)
        (fun c => (double.rounding ℝ).shiWeight L n (occIN (markSerial (squareSel w D s)) c)))
      ((double.rounding ℝ).mul ((double.rounding ℝ).rnd ((s : ℤ) : ℝ)) (L.log ((double.rounding ℝ).ofNat n))) = .fin q ∧ double.round q = .fin q ∧ 0 ≤ q ∧ q ≤ 99 / 100 ∧
      (q = 0 ↔ (∑ c ∈ (squareSel w D s i).toFinset ∩ (squareSel w D s j).toFinset, Real.log ((n : ℝ) / occIN (markSerial (squareSel w D s)) c)) / (s * Real.log n) = 0) ∧
      |q - (∑ c ∈ (squareSel w D s i).toFinset ∩ (squareSel w D s j).toFinset, Real.log ((n : ℝ) / occIN (markSerial (squareSel w D s)) c)) / (s * Real.log n)|
        ≤ (2 * n + 15) * u := by
  have hN := squareSel_isHood w D x hD s hs
  have hself : ∀ j, j ∉ (squareSel w D s j).toFinset := fun j hj => by
    have := (hN j).sub hj
    simp at this
  have ho : ∀ c, 1 ≤ occIN (markSerial (squareSel w D s)) c ∧ occIN (markSerial (squareSel w D s)) c ≤ n := fun c => by
    rw [occIN_square w D s c (hself c)]
    exact ⟨occurrence_pos _ _ _, occurrence_le (fun i => (squareSel w D s i).toFinset) hself c⟩
  obtain ⟨o, hoe⟩ : ∃ o, o = occIN (markSerial (squareSel w D s)) := ⟨_, rfl⟩
  have ho2 : ∀ c ∈ (squareSel w D s i).toFinset, 2 ≤ o c := by
    intro c hc
    rw [hoe, occIN_square w D s c (hself c)]
    unfold Spec.occurrence
    have : 0 < (Finset.univ.filter fun i : Fin n => c ∈ (squareSel w D s i).toFinset).card := Finset.card_pos.2 ⟨i, by simpa using hc⟩
    exact Nat.succ_le_succ this
  rw [← hoe] at ho ⊢
  choose g g1 g2 g3 g4 g5 using fun c => weight_near L hL hn (ho c).1 (ho c).2
  obtain ⟨A, hA⟩ : ∃ A, A = (squareSel w D s i).toFinset ∩ (squareSel w D s j).toFinset := ⟨_, rfl⟩
  have hcard : A.card ≤ s := by
    rw [hA]
    exact (Finset.card_le_card Finset.inter_subset_left).trans_eq (hN i).card
  rw [← hA]
  have hn1 : (2 : ℝ) ≤ n := by
    have : 2 ≤ n := by omega
    exact_mod_cast this
  have hterm : ∀ c ∈ A, Real.log ((n : ℝ) / o c) ≤ Real.log n - Real.log 2 := by
    intro c hc
    rw [hA] at hc
    have h2 : (2 : ℝ) ≤ o c := by exact_mod_cast ho2 c (Finset.mem_inter.1 hc).1
    rw [Real.log_div (by linarith) (by linarith)]
    have := Real.log_le_log (by norm_num) h2
    linarith
  have hlogb : Real.log n - Real.log 2 ≤ 1000 := by
    have hn2 : (n : ℝ) ≤ 33554432 := by exact_mod_cast hn
    have := Real.log_le_log (by linarith) hn2
    rw [show (33554432 : ℝ) = 2 ^ 25 by norm_num, Real.log_pow] at this
    have h3 := Real.log_two_lt_d9
    have h4 : Real.log n ≤ 25 * Real.log 2 := by exact_mod_cast this
    have h5 := Real.log_two_gt_d9
    linarith
  have el : (List.ofFn fun c => (double.rounding ℝ).mul (ofBool (markSerial (squareSel w D s) i c && markSerial (squareSel w D s) j c))
      ((double.rounding ℝ).shiWeight L n (o c))) = List.ofFn fun c => .fin (if c ∈ A then g c else 0) := by
    congr 1
    funext c
    rw [g1, markSerial_apply, markSerial_apply, hA]
    have e1 : (double.rounding ℝ).mul (.fin 1) (.fin (g c)) = .fin (g c) :=
      (congrArg (double.rounding ℝ).up (show XR.mul (.fin 1) (.fin (g c)) = .fin (g c) by simp [XR.mul])).trans (g2 c)
    have e0 : (double.rounding ℝ).mul (.fin 0) (.fin (g c)) = .fin 0 :=
      (congrArg (double.rounding ℝ).up (show XR.mul (.fin 0) (.fin (g c)) = .fin 0 by simp [XR.mul])).trans (double.rounding ℝ).zero
    by_cases m1 : c ∈ squareSel w D s i <;> by_cases m2 : c ∈ squareSel w D s j <;> simp [ofBool, m1, m2, e0, e1]
  unfold Rounding.shiShared
  rw [el]
  have hS := hL.sum (List.ofFn fun c => .fin (if c ∈ A then g c else 0)) (by
    intro a ha
    obtain ⟨c, rfl⟩ := (List.mem_ofFn' _ _).1 ha
    beta_reduce
    split_ifs
    · exact g2 c
    · exact (double.rounding ℝ).zero)
  obtain ⟨σ, s1, -, s3, s4⟩ := shi_sum hn (by omega) A hcard g (fun c => Real.log ((n : ℝ) / o c)) (fun c _ => g2 c) (fun c _ => g4 c)
    (fun c hc => (hterm c hc).trans hlogb) (fun c _ => g3 c) (fun c _ => g5 c) hS
  rw [s1]
  refine shi_quot L hL hn h1 hs s3 (Finset.sum_nonneg fun c _ => g4 c) ?_ s4
  refine (Finset.sum_le_card_nsmul A _ _ hterm).trans ?_
  rw [nsmul_eq_mul]
  have h3 : 0 ≤ Real.log n - Real.log 2 := by
    have := Real.log_le_log (by norm_num) hn1
    linarith
  exact mul_le_mul_of_nonneg_right (by exact_mod_cast hcard) h3

/-- **C288**: `simhubIN` in double precision is symmetric, in the unit interval, with the exact self value and an error of at most `(2 n + 16) · 2⁻⁵³`; different objects
never have distance zero or similarity one, and a similarity is zero exactly if the exact similarity is. -/
theorem C288_simhubIN (rd : Bool) (nJobs : ℤ) : ∃ v z : Fin n → Fin n → ℝ, SNN.simhubIN w (.mat false n n D) none none s rd nJobs = .ok ⟨n, n, fun i j => .fin (v i j)⟩ ∧
    (double.rounding ℝ).simhubIN L w (.mat false n n D) none none s rd nJobs = .ok ⟨n, n, fun i j => .fin (z i j)⟩ ∧
    (∀ i j, z i j = z j i) ∧ (∀ i, z i i = if rd then 0 else 1) ∧ (∀ i j, 0 ≤ z i j ∧ z i j ≤ 1) ∧
    (∀ i j, |z i j - v i j| ≤ (2 * n + 16) * (1 / 2 ^ 53)) ∧
    (∀ i j, i ≠ j → if rd then 0 < z i j else z i j < 1 ∧ (z i j = 0 ↔ v i j = 0)) := by
  have hu' : u = 1 / 2 ^ 53 := by rw [u_eq]; norm_num
  rw [← hu']
  have hu := u_pos
  have h50 := u_le_lit
  have hN := squareSel_isHood w D x hD s hs
  have hself : ∀ j, j ∉ (squareSel w D s j).toFinset := fun j hj => by
    have := (hN j).sub hj
    simp at this
  have hnorm : (s : ℝ) * Real.log n ≠ 0 := mul_ne_zero (Nat.cast_ne_zero.2 (by omega)) (log_pos_of (by omega)).ne'
  choose q q1 q2 q3 q4 q5 q6 using shi_pair w D L x hD s h1 hs hn hL
  obtain ⟨V, hV⟩ : ∃ V : Fin n → Fin n → ℝ, V = fun i j => (∑ c ∈ (squareSel w D s i).toFinset ∩ (squareSel w D s j).toFinset,
    Real.log ((n : ℝ) / occIN (markSerial (squareSel w D s)) c)) / (s * Real.log n) := ⟨_, rfl⟩
  have q5' : ∀ i j, q i j = 0 ↔ V i j = 0 := by rw [hV]; exact q5
  have q6' : ∀ i j, |q i j - V i j| ≤ (2 * n + 15) * u := by rw [hV]; exact q6
  have qsymm : ∀ i j, q i j = q j i := by
    intro i j
    refine XR.fin.inj ((q1 i j).symm.trans (Eq.trans ?_ (q1 j i)))
    unfold Rounding.shiShared
    simp only [Bool.and_comm]
  have hexact : SNN.simhubIN w (.mat false n n D) none none s rd nJobs =
      .ok ⟨n, n, fun i j => .fin (Spec.orDistance rd (if i = j then 1 else V i j))⟩ := by
    rw [simhubIN_square, log_fin (by omega)]
    refine congrArg Except.ok ?_
    rw [show XR.mul (.fin ((s : ℤ) : ℝ)) (.fin (Real.log n)) = .fin ((s : ℝ) * Real.log n) by simp [XR.mul]]
    rw [hV]
    exact shiFinish_none_fin _ _ (fun i j => shared_mark _ i j _ _ fun c => informativeness_fin (by omega) (by
      rw [occIN_square w D s c (hself c)]
      exact occurrence_pos _ _ _)) _ hnorm rd
  -- conversion to distances
  have hconv : ∀ i j, ∃ z : ℝ, (if rd then (double.rounding ℝ).add ((double.rounding ℝ).mul (.fin (q i j)) (.fin (-1))) (.fin 1) else .fin (q i j)) = .fin z ∧
      0 ≤ z ∧ z ≤ 1 ∧ |z - Spec.orDistance rd (q i j)| ≤ u ∧ (if rd then 0 < z else z = q i j) := by
    intro i j
    cases rd
    · refine ⟨q i j, rfl, q3 i j, by linarith [q4 i j], ?_, ?_⟩
      · simp [Spec.orDistance, hu.le]
      · simp
    · have e1 : (double.rounding ℝ).mul (.fin (q i j)) (.fin (-1)) = .fin (-(q i j)) :=
        (congrArg (double.rounding ℝ).up (show XR.mul (.fin (q i j)) (.fin (-1)) = .fin (-(q i j)) by simp [XR.mul])).trans (neg_float double (q2 i j))
      have e2 : (double.rounding ℝ).add (.fin (-(q i j))) (.fin 1) = double.round (1 - q i j) :=
        congrArg (double.rounding ℝ).up (show XR.add (.fin (-(q i j))) (.fin 1) = .fin (1 - q i j) by simp only [XR.add]; congr 1; ring)
      have p1 : 1 / 100 ≤ 1 - q i j := by linarith [q4 i j]
      have p2 : 1 - q i j ≤ 1 := by linarith [q3 i j]
      have p0 : 0 < 1 - q i j := by linarith
      obtain ⟨z, z1, -, z3⟩ := rel_moderate (x := 1 - q i j) (Or.inr (by rw [abs_of_pos p0]; exact le_trans (by norm_num) p1))
        (by rw [abs_of_pos p0]; exact p2.trans (by norm_num))
      rw [abs_of_pos p0] at z3
      have hz1 : z ≤ 1 := by
        have := (double.rounding ℝ).le_one p2
        rw [show (double.rounding ℝ).rnd (1 - q i j) = .fin z from z1] at this
        exact this
      have z4 := abs_le.1 z3
      have z5 : u * (1 - q i j) ≤ 1 / 2 * (1 - q i j) := mul_le_mul_of_nonneg_right (by linarith) p0.le
      have z6 : u * (1 - q i j) ≤ u * 1 := mul_le_mul_of_nonneg_left p2 hu.le
      refine ⟨z, ?_, by linarith, hz1, ?_, ?_⟩
      · rw [if_pos rfl, e1, e2, z1]
      · simp only [Spec.orDistance, if_true]
        linarith
      · rw [if_pos rfl]
        linarith
  choose f f1 f2 f3 f4 f5 using hconv
  have fsymm : ∀ i j, f i j = f j i := by
    intro i j
    refine XR.fin.inj ((f1 i j).symm.trans (Eq.trans ?_ (f1 j i)))
    rw [qsymm]
  have hfloat : (double.rounding ℝ).simhubIN L w (.mat false n n D) none none s rd nJobs =
      .ok ⟨n, n, fun i j => .fin (if i = j then (if rd then 0 else 1) else f i j)⟩ := by
    rw [simhubIN_closed]
    refine congrArg Except.ok ?_
    unfold Rounding.shiFinish
    simp only
    congr 2
    funext i j
    unfold Np.fillDiagonal
    by_cases h : i = j
    · rw [if_pos (by rw [h]), if_pos h]
      cases rd <;> rfl
    · rw [if_neg (fun h' : i.val = j.val => h (Fin.ext h')), if_neg h]
      beta_reduce
      rw [q1]
      exact f1 i j
  refine ⟨_, _, hexact, hfloat, ?_, ?_, ?_, ?_, ?_⟩
  · intro i j
    by_cases h : i = j
    · rw [h]
    · rw [if_neg h, if_neg (Ne.symm h)]
      exact fsymm i j
  · intro i
    rw [if_pos rfl]
  · intro i j
    by_cases h : i = j
    · rw [if_pos h]
      cases rd <;> simp
    · rw [if_neg h]
      exact ⟨f2 i j, f3 i j⟩
  · intro i j
    by_cases h : i = j
    · rw [if_pos h, if_pos h]
      have : (0 : ℝ) ≤ (2 * n + 16) * u := by positivity
      cases rd <;> simpa [Spec.orDistance] using this
    · rw [if_neg h, if_neg h]
      have a1 := abs_le.1 (f4 i j)
      have a2 := abs_le.1 (q6' i j)
      rw [abs_le]
      cases rd
      · simp only [Spec.orDistance] at a1 ⊢
        constructor <;> simp_all <;> linarith
      · simp only [Spec.orDistance, if_true] at a1 ⊢
        constructor <;> linarith
  · intro i j h
    have a1 := f5 i j
    cases rd
    · simp only [Bool.false_eq_true, if_false, Spec.orDistance] at a1 ⊢
      rw [if_neg h, if_neg h, a1]
      exact ⟨by linarith [q4 i j], q5' i j⟩
    · rw [if_pos rfl] at a1 ⊢
      rw [if_neg h]
      exact a1

/-- **C288**: `simhub` without labels returns the same numbers as `simhubIN`. -/
theorem C288_simhub (rd : Bool) (nJobs vu : ℤ) : (double.rounding ℝ).simhub L w (.mat false n n D) none none s rd vu =
    (double.rounding ℝ).simhubIN L w (.mat false n n D) none none s rd nJobs := by
  have hN := squareSel_isHood w D x hD s hs
  have hself : ∀ j, j ∉ (squareSel w D s j).toFinset := fun j hj => by
    have := (hN j).sub hj
    simp at this
  rw [simhub_closed _ _ _ _ _ (by omega), simhubIN_closed]
  congr 2
  funext i j
  congr 1
  funext c
  obtain ⟨g, g1, g2, -⟩ := weight_near L hL (m := n) (N := occIN (markSerial (squareSel w D s)) c) hn (by
    rw [occIN_square w D s c (hself c)]
    exact occurrence_pos _ _ _) (by
    rw [occIN_square w D s c (hself c)]
    exact occurrence_le (fun i => (squareSel w D s i).toFinset) hself c)
  rw [occ_square, ← occIN_square w D s c (hself c), g1]
  exact (congrArg (double.rounding ℝ).up (show XR.mul (.fin g) (.fin 1) = .fin g by simp [XR.mul])).trans g2

end

/-! ### Instances -/

/-- Sums from left to right, correctly rounded logarithms. -/
noncomputable def ShiLib.rounded : ShiLib where
  sum l := l.foldl (double.rounding ℝ).add (.fin 0)
  log a := (double.rounding ℝ).up (XR.log a)

theorem float_gap {x : ℝ} (hf : double.round x = .fin x) (h : 1 < x) : 1 + 1 / 2 ^ 60 ≤ x := by
  by_contra hlt
  push Not at hlt
  have h1 := (double.rounding ℝ).mono x _ hlt.le
  rw [show (double.rounding ℝ).rnd x = .fin x from hf] at h1
  have h2 : double.round (1 + 1 / 2 ^ 60 : ℝ) = .fin 1 := by
    have := round_near (x := 1 + 1 / 2 ^ 60) (e := 0) (z := 2 ^ 52) (by norm_num) (by norm_num) (by norm_num) (by norm_num) (by norm_num) (by norm_num)
    rw [this]
    congr 1
    norm_num
  rw [show (double.rounding ℝ).rnd (1 + 1 / 2 ^ 60 : ℝ) = .fin 1 from h2] at h1
  exact absurd (show x ≤ 1 from h1) (not_le.2 h)

theorem ShiLib.rounded_near : ShiLib.rounded.Near where
  sum l hl := sums_foldl _ l hl
  log x hf h1 h2 := by
    have hx : 0 < x := by linarith
    have hl0 : 0 ≤ Real.log x := Real.log_nonneg h1
    have hu := u_pos
    obtain ⟨y, y1, y2, y3⟩ := rel_moderate (x := Real.log x) (by
        rcases eq_or_lt_of_le h1 with h | h
        · left
          rw [← h, Real.log_one]
        · right
          rw [abs_of_nonneg hl0]
          have h3 := Real.one_sub_inv_le_log_of_pos hx
          have h4 := float_gap hf h
          have h5 : x⁻¹ ≤ (1 + 1 / 2 ^ 60 : ℝ)⁻¹ := inv_anti₀ (by norm_num) h4
          refine le_trans ?_ (le_trans (sub_le_sub_left h5 1) h3)
          norm_num) (by
        rw [abs_of_nonneg hl0]
        have := Real.log_le_sub_one_of_pos hx
        refine (this.trans (show x - 1 ≤ 2 ^ 30 by linarith)).trans (by norm_num))
    rw [abs_of_nonneg hl0] at y3
    refine ⟨y, ?_, y2, y3.trans ?_⟩
    · have : XR.log (.fin x) = .fin (Real.log x) := by simp only [XR.log, if_neg hx.ne', if_neg hx.not_gt]
      unfold ShiLib.rounded
      simp only
      rw [this]
      exact y1
    · have := mul_nonneg hu.le hl0
      linarith

/-- Five points on a line with two neighbours each. -/
example (w : World ℝ) := C288_simhubIN w (fun i j : Fin 5 => .fin |(![0, 1, 3, 4, 9] i : ℝ) - ![0, 1, 3, 4, 9] j|) ShiLib.rounded
  (fun i j => |(![0, 1, 3, 4, 9] i : ℝ) - ![0, 1, 3, 4, 9] j|) (fun _ _ _ => rfl) 2 (by decide) (by decide) (by decide) ShiLib.rounded_near true 4

example (w : World ℝ) := C288_simhub w (fun i j : Fin 5 => .fin |(![0, 1, 3, 4, 9] i : ℝ) - ![0, 1, 3, 4, 9] j|) ShiLib.rounded
  (fun i j => |(![0, 1, 3, 4, 9] i : ℝ) - ![0, 1, 3, 4, 9] j|) (fun _ _ _ => rfl) 2 (by decide) (by decide) (by decide) ShiLib.rounded_near false 1 0

end HubToolbox.Rounding
