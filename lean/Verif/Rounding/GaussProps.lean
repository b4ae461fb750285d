import Verif.Rounding.GaussModel
import Verif.Rounding.Count
import Verif.MPPar.Lemmas

/-!
# C187, C188: Mutual Proximity with Gauss and Gamma distributions in floating point
-/

set_option autoImplicit false
set_option linter.unusedSectionVars false

namespace HubToolbox.Rounding

section
variable {K : Type} [Field K] [LinearOrder K] [IsStrictOrderedRing K] {R : Rounding K}

/-- Closed form: the upper triangle is mirrored. -/
def mirrored {n : ℕ} (v : XR K) (f : Fin n → Fin n → XR K) : Fin n → Fin n → XR K :=
  fun i j => if i = j then v else if i < j then f i j else f j i

theorem fillUpper_eq {n : ℕ} (v : XR K) (f : Fin n → Fin n → XR K) (hf : ∀ i j, R.Float (f i j)) :
    R.fillUpper v f = mirrored v f := by
  have z1 : ∀ a : XR K, XR.add a (.fin 0) = a := by intro a; cases a <;> simp [XR.add]
  have z2 : ∀ a : XR K, XR.add (.fin 0) a = a := by intro a; cases a <;> simp [XR.add]
  funext i j
  unfold fillUpper mirrored
  simp only [Np.fillDiagonal, MPEmp.foldl_setRowFrom f (fun i => i.val + 1), List.mem_finRange, true_and]
  by_cases hij : i = j
  · simp [hij]
  rcases lt_or_gt_of_ne hij with h | h
  · have h1 : i.val + 1 ≤ j.val := h
    have h2 : ¬ j.val + 1 ≤ i.val := by omega
    simp only [hij, h, h1, h2, Fin.val_ne_of_ne hij, if_true, if_false, add, z1]
    exact hf i j
  · have h1 : j.val + 1 ≤ i.val := h
    have h2 : ¬ i.val + 1 ≤ j.val := by omega
    simp only [hij, h.not_gt, h1, h2, Fin.val_ne_of_ne hij, if_true, if_false, add, z2]
    exact hf j i

theorem mul_unit {a b : XR K} (ha : NanOrUnit a) (hb : NanOrUnit b) : NanOrUnit (R.mul a b) := by
  rcases ha with rfl | ⟨x, rfl, x0, x1⟩
  · left; cases b <;> rfl
  rcases hb with rfl | ⟨y, rfl, y0, y1⟩
  · left; rfl
  · right
    exact unit (R := R) (mul_nonneg x0 y0) (mul_le_one₀ x1 y0 y1)

theorem one_sub_unit' {a : XR K} (ha : NanOrUnit a) : NanOrUnit (R.sub (.fin 1) a) := by
  rcases ha with rfl | ⟨x, rfl, x0, x1⟩
  · left; rfl
  · right
    have : R.sub (.fin 1) (.fin x) = R.rnd (1 - x) := by
      simp [sub, XR.sub, XR.neg, XR.add, up, sub_eq_add_neg]
    rw [this]
    exact unit (by linarith) (by linarith)

theorem gaussEntry_unit {L : ProbLib K} (hL : L.Ok R) (metric : String) (x mu sd mu' sd' : XR K) :
    NanOrUnit (R.gaussEntry L metric x mu sd mu' sd') := by
  unfold gaussEntry
  split
  · exact mul_unit (hL.cdf_unit _ _ _) (hL.cdf_unit _ _ _)
  · exact one_sub_unit' (mul_unit (hL.sf_unit _ _ _) (hL.sf_unit _ _ _))

theorem gamEntry_unit {L : ProbLib K} (hL : L.Ok R) (metric : String) (x x' a b a' b' : XR K) :
    NanOrUnit (R.gamEntry L metric x x' a b a' b') := by
  unfold gamEntry
  split
  · exact mul_unit (hL.gammainc_unit _ _) (hL.gammainc_unit _ _)
  · exact one_sub_unit' (mul_unit (one_sub_unit' (hL.gammainc_unit _ _)) (one_sub_unit' (hL.gammainc_unit _ _)))

theorem gaussEntry_float (L : ProbLib K) (metric : String) (x mu sd mu' sd' : XR K) :
    R.Float (R.gaussEntry L metric x mu sd mu' sd') := by
  unfold gaussEntry
  split <;> exact float_up _

theorem gamEntry_float (L : ProbLib K) (metric : String) (x x' a b a' b' : XR K) :
    R.Float (R.gamEntry L metric x x' a b a' b') := by
  unfold gamEntry
  split <;> exact float_up _

theorem gaussi_square (L : ProbLib K) {n : ℕ} (D : Fin n → Fin n → XR K) (metric : String)
    (hm : metric = "distance" ∨ metric = "similarity") (test : Option (List ℤ)) :
    R.gaussi L D metric test = .ok ⟨n, R.gaussiDense L metric D (LS.trainInd n test)⟩ := by
  rcases hm with rfl | rfl <;> simp [gaussi, PyMat.checkSquare, checkValidMetric] <;> rfl

theorem gammai_square (L : ProbLib K) {n : ℕ} (D : Fin n → Fin n → XR K) (metric : String)
    (hm : metric = "distance" ∨ metric = "similarity") (test : Option (List ℤ)) :
    R.gammai L D metric test = .ok ⟨n, R.gammaiDense L metric D (LS.trainInd n test)⟩ := by
  rcases hm with rfl | rfl <;> simp [gammai, PyMat.checkSquare, checkValidMetric] <;> rfl

theorem mirrored_valid {n : ℕ} (v : XR K) (f : Fin n → Fin n → XR K) (hf : ∀ i j, NanOrUnit (f i j)) :
    (∀ i j, mirrored v f i j = mirrored v f j i) ∧ (∀ i, mirrored v f i i = v) ∧
    (∀ i j, i ≠ j → NanOrUnit (mirrored v f i j)) := by
  refine ⟨fun i j => ?_, fun i => by simp [mirrored], fun i j hij => ?_⟩
  · unfold mirrored
    rcases lt_trichotomy i j with h | h | h
    · simp [h, h.ne, h.ne', h.not_gt]
    · simp [h]
    · simp [h, h.ne, h.ne', h.not_gt]
  · unfold mirrored
    rw [if_neg hij]
    split <;> exact hf _ _

/-- **C187**. Whatever the rounding, the entries of the matrix and the accuracy of the library functions: the results of
`mutual_proximity_gaussi` and `mutual_proximity_gammai` are symmetric matrices with the self value on the diagonal, all
other entries being `nan` or numbers in the unit interval. -/
theorem C187_valid (L : ProbLib K) (hL : L.Ok R) {n : ℕ} (D : Fin n → Fin n → XR K) (metric : String)
    (hm : metric = "distance" ∨ metric = "similarity") (test : Option (List ℤ)) :
    (∃ M : Fin n → Fin n → XR K, R.gaussi L D metric test = .ok ⟨n, M⟩ ∧ (∀ i j, M i j = M j i) ∧
      (∀ i, M i i = .fin (if metric = "similarity" then 1 else 0)) ∧
      (∀ i j, i ≠ j → M i j = .nan ∨ ∃ y, M i j = .fin y ∧ 0 ≤ y ∧ y ≤ 1)) ∧
    (∃ M : Fin n → Fin n → XR K, R.gammai L D metric test = .ok ⟨n, M⟩ ∧ (∀ i j, M i j = M j i) ∧
      (∀ i, M i i = .fin (if metric = "similarity" then 1 else 0)) ∧
      (∀ i j, i ≠ j → M i j = .nan ∨ ∃ y, M i j = .fin y ∧ 0 ≤ y ∧ y ≤ 1)) := by
  have hs : (selfValue metric : XR K) = .fin (if metric = "similarity" then 1 else 0) := by
    unfold selfValue; split <;> rfl
  constructor
  · refine ⟨_, gaussi_square L D metric hm test, ?_⟩
    unfold gaussiDense
    simp only
    rw [fillUpper_eq _ _ (fun i j => gaussEntry_float L metric _ _ _ _ _), hs]
    exact mirrored_valid _ _ (fun i j => gaussEntry_unit hL metric _ _ _ _ _)
  · refine ⟨_, gammai_square L D metric hm test, ?_⟩
    unfold gammaiDense
    simp only
    rw [fillUpper_eq _ _ (fun i j => gamEntry_float L metric _ _ _ _ _ _), hs]
    exact mirrored_valid _ _ (fun i j => gamEntry_unit hL metric _ _ _ _ _ _)

end

/-! ### Finite results -/

section
variable {K : Type} [Field K] [LinearOrder K] [IsStrictOrderedRing K] [FloorRing K]

theorem div_bound (F : Ieee) {s b : K} {m : ℕ} (h0 : 0 < m) (hm : m ≤ 2 ^ F.p) (hp : (F.p : ℤ) ≤ F.emax)
    (hs : |s| ≤ (m : K) * b) (hb : F.round b = .fin b) :
    ∃ y, (F.rounding K).div (.fin s) ((F.rounding K).ofNat m) = .fin y ∧ |y| ≤ b ∧ (0 ≤ s → 0 ≤ y) := by
  have e : (F.rounding K).ofNat m = .fin (m : K) := Ieee.round_natCast F hm hp
  have hm0 : (0 : K) < m := by exact_mod_cast h0
  rw [e]
  have e2 : (F.rounding K).div (.fin s) (.fin (m : K)) = F.round (s / m) := by
    simp only [div, XR.div, if_neg hm0.ne']; rfl
  rw [e2]
  have hle : |s / (m : K)| ≤ b := by
    rw [abs_div, abs_of_pos hm0, div_le_iff₀ hm0]
    linarith
  obtain ⟨y, hy, h1⟩ := Ieee.round_abs_le F hle hb
  refine ⟨y, hy, h1, fun h => ?_⟩
  have := nonneg (R := F.rounding K) (x := s / m) (div_nonneg h hm0.le)
  change _ ≤ F.round (s / m) at this
  rw [hy] at this
  exact this

/-- Mean and standard deviation of moderately large numbers are finite. -/
theorem gaussParams_fin (F : Ieee) (L : ProbLib K) (hL : L.Ok (F.rounding K)) {e : ℕ} (he : (F.p : ℤ) + (2 * e + 2) ≤ F.emax)
    (l : List (XR K)) (h0 : 0 < l.length) (hl : l.length ≤ 2 ^ F.p) (h7 : ∃ y, F.round (1 / 10 ^ 7 : K) = .fin y ∧ 0 < y)
    (hb : ∀ a ∈ l, (F.rounding K).Float a ∧ ∃ x, a = .fin x ∧ |x| ≤ (2 : K) ^ e) :
    ∃ m s : K, (F.rounding K).gaussParams L l = (.fin m, .fin s) ∧ 0 < s := by
  have hpow : ∀ d : ℕ, d ≤ 2 * e + 2 → F.round ((2 : K) ^ d) = .fin (2 ^ d) := by
    intro d hd
    have := Ieee.round_mul_two_pow (K := K) F (m := 1) (e := d) Nat.one_le_two_pow (by omega)
    simpa using this
  obtain ⟨s, hs, bs⟩ := Ieee.sum_abs_le F (hL.sum_some_order l (fun a ha => (hb a ha).1)) hl (by omega) (fun a ha => (hb a ha).2)
  obtain ⟨m, hm, bm, -⟩ := div_bound F h0 hl (by omega) bs (hpow e (by omega))
  have hdev : ∀ a ∈ l, ∃ d : K, (F.rounding K).mul ((F.rounding K).sub a (.fin m)) ((F.rounding K).sub a (.fin m)) = .fin d ∧
      0 ≤ d ∧ d ≤ 2 ^ (2 * e + 2) := by
    intro a ha
    obtain ⟨-, x, rfl, hx⟩ := hb a ha
    have e1 : (F.rounding K).sub (.fin x) (.fin m) = F.round (x - m) := by
      simp [sub, XR.sub, XR.neg, XR.add, up, sub_eq_add_neg]; rfl
    obtain ⟨d, hd, bd⟩ := Ieee.round_abs_le F (x := x - m) (b := 2 ^ (e + 1)) (by
      refine (abs_sub x m).trans ?_
      rw [pow_succ]
      linarith) (hpow (e + 1) (by omega))
    rw [e1, hd]
    have hsq : d * d ≤ 2 ^ (2 * e + 2) := by
      have : (2 : K) ^ (2 * e + 2) = 2 ^ (e + 1) * 2 ^ (e + 1) := by rw [← pow_add]; congr 1; omega
      rw [this, ← abs_mul_abs_self d]
      exact mul_le_mul bd bd (abs_nonneg _) (by positivity)
    exact Ieee.round_le F (x := d * d) (mul_self_nonneg d) hsq (hpow _ le_rfl)
  obtain ⟨q, hq, q0, q1⟩ := Ieee.sum_nonneg_le F (K := K) (e := 2 * e + 2)
    (hL.sum_some_order (l.map (fun x => (F.rounding K).mul ((F.rounding K).sub x (.fin m)) ((F.rounding K).sub x (.fin m))))
      (fun a ha => by
        obtain ⟨x, hx, rfl⟩ := List.mem_map.1 ha
        exact float_up _))
    (by rw [List.length_map]; exact hl) (by push_cast; omega)
    (by
      intro a ha
      obtain ⟨x, hx, rfl⟩ := List.mem_map.1 ha
      exact hdev x hx)
  rw [List.length_map] at q1
  obtain ⟨v, hv, -, v0⟩ := div_bound F (b := 2 ^ (2 * e + 2)) h0 hl (by omega) (by rw [abs_of_nonneg q0]; exact q1) (hpow _ le_rfl)
  have hvar : (F.rounding K).nanvar L 0 l = .fin v := by
    unfold nanvar
    simp only [hs, hm, hq]
    rw [if_neg (by omega)]
    simpa using hv
  have hmean : (F.rounding K).nanmean L l = .fin m := by
    unfold nanmean
    rw [hs, hm]
  obtain ⟨r, hr, r0⟩ := hL.sqrt_fin v (by rw [← hv]; exact (F.rounding K).float_up _) (v0 q0)
  unfold gaussParams
  rw [hmean, hvar, hr]
  unfold noZero
  by_cases hz : r = 0
  · obtain ⟨y, hy, y0⟩ := h7
    refine ⟨m, y, ?_, y0⟩
    rw [if_pos (by rw [hz])]
    exact congrArg _ hy
  · refine ⟨m, r, ?_, lt_of_le_of_ne r0 (Ne.symm hz)⟩
    rw [if_neg (fun h => hz (XR.fin.inj h))]

theorem round_pos (F : Ieee) {e : ℤ} (h0 : F.emin ≤ e) (h1 : e ≤ F.emax) {x : K} (hx : 2 ^ e ≤ x) (hx1 : x ≤ 1) :
    ∃ y, F.round x = .fin y ∧ 0 < y := by
  obtain ⟨y, hy, y0, -⟩ := Ieee.round_le F (x := x) (b := 1) ((zpow_pos two_pos e).le.trans hx) hx1 (F.rounding K).one
  refine ⟨y, hy, ?_⟩
  have hm := (F.rounding K).mono _ _ hx
  have hr : F.round ((2 : K) ^ e) = .fin (2 ^ e) := by
    have h := Ieee.nearest_rep (K := K) F (m := 1) (t := e) (by simpa using one_le_pow₀ (by norm_num : (1 : ℤ) ≤ 2)) (by
      have := F.p_pos; omega)
    simp only [Int.cast_one, one_mul] at h
    rw [Ieee.round_of_lt] <;> rw [h]
    rw [abs_of_pos (zpow_pos two_pos _)]
    exact zpow_lt_zpow_right₀ one_lt_two (by omega)
  change F.round _ ≤ F.round _ at hm
  rw [hr, hy] at hm
  exact (zpow_pos two_pos e).trans_le hm

/-- **C187** (no `nan`). For distances up to `2 ^ e` with `2 e + 2 + p ≤ emax` (float64: up to `2 ^ 484`) and at least one other
training object for each object, `mutual_proximity_gaussi` returns numbers in the unit interval only. (Sums of larger values
may overflow.) -/
theorem C187_regular (F : Ieee) (L : ProbLib K) (hL : L.Ok (F.rounding K)) {n : ℕ} (D : Fin n → Fin n → K) {e : ℕ}
    (he : (F.p : ℤ) + (2 * e + 2) ≤ F.emax) (hmin : F.emin ≤ -24) (hn : n ≤ 2 ^ F.p) (hD : ∀ i j, |D i j| ≤ 2 ^ e)
    (hF : ∀ i j, F.round (D i j) = .fin (D i j)) (metric : String) (hm : metric = "distance" ∨ metric = "similarity")
    (test : Option (List ℤ)) (htr : ∀ j : Fin n, ∃ i ∈ LS.trainInd n test, i ≠ j) :
    ∃ M : Fin n → Fin n → XR K, (F.rounding K).gaussi L (fun i j => .fin (D i j)) metric test = .ok ⟨n, M⟩ ∧
      ∀ i j, ∃ y, M i j = .fin y ∧ 0 ≤ y ∧ y ≤ 1 := by
  refine ⟨_, gaussi_square L _ metric hm test, ?_⟩
  have h7 : ∃ y, F.round (1 / 10 ^ 7 : K) = .fin y ∧ 0 < y := by
    refine round_pos F (e := -24) hmin (by have := F.le_emax; omega) ?_ ?_ <;> norm_num
  have hpar : ∀ j, ∃ m s : K, (F.rounding K).gaussParams L (colVals (fun i j => .fin (D i j)) (LS.trainInd n test) j) =
      (.fin m, .fin s) ∧ 0 < s := by
    intro j
    apply gaussParams_fin F L hL he _ _ _ h7
    · intro a ha
      unfold colVals at ha
      obtain ⟨h1, h2⟩ := List.mem_filter.1 ha
      obtain ⟨i, -, rfl⟩ := List.mem_map.1 h1
      have h2 := of_decide_eq_true h2
      have : Np.fillDiagonal (fun i j => XR.fin (D i j)) .nan i j = .fin (D i j) := by
        unfold Np.fillDiagonal at h2 ⊢
        by_cases hij : i.val = j.val
        · rw [if_pos hij] at h2; exact absurd rfl h2
        · rw [if_neg hij]
      rw [this]
      exact ⟨hF i j, _, rfl, hD i j⟩
    · obtain ⟨i, hi, hij⟩ := htr j
      apply List.length_pos_of_mem (a := .fin (D i j))
      unfold colVals
      rw [List.mem_filter]
      refine ⟨List.mem_map.2 ⟨i, hi, ?_⟩, by simp⟩
      unfold Np.fillDiagonal
      rw [if_neg (fun h => hij (Fin.ext h))]
    · unfold colVals
      refine (List.length_filter_le _ _).trans ?_
      rw [List.length_map]
      refine le_trans ?_ hn
      have hnd : (LS.trainInd n test).Nodup := by
        unfold LS.trainInd
        split
        · exact List.nodup_finRange n
        · exact (List.nodup_finRange n).filter _
      have := hnd.length_le_card
      simpa using this
  have hprod : ∀ a b : XR K, NanOrUnit a → NanOrUnit b → a ≠ .nan → b ≠ .nan → (F.rounding K).mul a b ≠ .nan := by
    rintro a b (rfl | ⟨x, rfl, -⟩) (rfl | ⟨y, rfl, -⟩) ha hb
    · exact absurd rfl ha
    · exact absurd rfl ha
    · exact absurd rfl hb
    · exact (F.rounding K).ne_nan _
  unfold gaussiDense
  simp only
  rw [fillUpper_eq _ _ (fun i j => gaussEntry_float L metric _ _ _ _ _)]
  intro i j
  by_cases hij : i = j
  · unfold mirrored selfValue
    rw [if_pos hij]
    split
    · exact ⟨1, rfl, zero_le_one, le_rfl⟩
    · exact ⟨0, rfl, le_rfl, zero_le_one⟩
  have hent : ∀ i j, ∃ y, (F.rounding K).gaussEntry L metric (.fin (D i j))
      ((F.rounding K).gaussParams L (colVals (fun i j => .fin (D i j)) (LS.trainInd n test) i)).1
      ((F.rounding K).gaussParams L (colVals (fun i j => .fin (D i j)) (LS.trainInd n test) i)).2
      ((F.rounding K).gaussParams L (colVals (fun i j => .fin (D i j)) (LS.trainInd n test) j)).1
      ((F.rounding K).gaussParams L (colVals (fun i j => .fin (D i j)) (LS.trainInd n test) j)).2 = .fin y ∧ 0 ≤ y ∧ y ≤ 1 := by
    intro i j
    rcases gaussEntry_unit hL metric (.fin (D i j))
      ((F.rounding K).gaussParams L (colVals (fun i j => .fin (D i j)) (LS.trainInd n test) i)).1
      ((F.rounding K).gaussParams L (colVals (fun i j => .fin (D i j)) (LS.trainInd n test) i)).2
      ((F.rounding K).gaussParams L (colVals (fun i j => .fin (D i j)) (LS.trainInd n test) j)).1
      ((F.rounding K).gaussParams L (colVals (fun i j => .fin (D i j)) (LS.trainInd n test) j)).2 with h | h
    · exfalso
      obtain ⟨m, s, e1, s0⟩ := hpar i
      obtain ⟨m', s', e2, s0'⟩ := hpar j
      rw [e1, e2] at h
      unfold gaussEntry at h
      simp only at h
      split at h
      · exact hprod _ _ (hL.cdf_unit _ _ _) (hL.cdf_unit _ _ _) (hL.cdf_fin _ _ _ s0) (hL.cdf_fin _ _ _ s0') h
      · rcases mul_unit (R := F.rounding K) (hL.sf_unit (.fin (D i j)) (.fin m) (.fin s))
          (hL.sf_unit (.fin (D i j)) (.fin m') (.fin s')) with h' | ⟨y, h', -⟩
        · exact hprod _ _ (hL.sf_unit _ _ _) (hL.sf_unit _ _ _) (hL.sf_fin _ _ _ s0) (hL.sf_fin _ _ _ s0') h'
        · rw [h'] at h
          exact (F.rounding K).ne_nan _ h
    · exact h
  unfold mirrored
  rw [if_neg hij]
  split
  · exact hent i j
  · exact hent j i


/-! ### All distances equal -/

/-- `norm.sf` standardises its argument: `sf(x, m, s) = T((x - m) / s)`. -/
def Standardised (R : Rounding K) (L : ProbLib K) (T : XR K → XR K) : Prop :=
  ∀ x m s : K, 0 < s → L.sf (.fin x) (.fin m) (.fin s) = T (R.div (R.sub (.fin x) (.fin m)) (.fin s))

/-- The root of the square of a float is exact. -/
def ExactRoots (R : Rounding K) (L : ProbLib K) : Prop :=
  ∀ y : K, 0 ≤ y → R.rnd y = .fin y → R.rnd (y * y) = .fin (y * y) → L.sqrt (.fin (y * y)) = .fin y

/-- The values of a column if all distances are equal. -/
theorem colVals_const {n : ℕ} (c : K) (j : Fin n) :
    colVals (fun _ _ : Fin n => .fin c) (LS.trainInd n none) j = List.replicate (n - 1) (.fin c) := by
  rw [List.eq_replicate_iff]
  constructor
  · unfold colVals LS.trainInd
    simp only
    rw [← List.countP_eq_length_filter, List.countP_map]
    have : (List.finRange n).countP ((fun a => decide (a ≠ XR.nan)) ∘
        (fun i => Np.fillDiagonal (fun _ _ : Fin n => XR.fin c) .nan i j)) =
        (List.finRange n).countP (fun i => decide (i ≠ j)) := by
      apply List.countP_congr
      intro i _
      simp only [Function.comp, Np.fillDiagonal, decide_eq_true_eq]
      by_cases h : i = j
      · simp [h]
      · simp [h, Fin.val_ne_of_ne h]
    rw [this, List.countP_eq_length_filter, ← List.toFinset_card_of_nodup ((List.nodup_finRange n).filter _)]
    have : (List.filter (fun i => decide (i ≠ j)) (List.finRange n)).toFinset = Finset.univ.erase j := by
      ext i; simp
    rw [this, Finset.card_erase_of_mem (Finset.mem_univ _), Finset.card_univ, Fintype.card_fin]
  · intro a ha
    unfold colVals at ha
    obtain ⟨h1, h2⟩ := List.mem_filter.1 ha
    obtain ⟨i, -, rfl⟩ := List.mem_map.1 h1
    have h2 := of_decide_eq_true h2
    unfold Np.fillDiagonal at h2 ⊢
    by_cases hij : i.val = j.val
    · rw [if_pos hij] at h2; exact absurd rfl h2
    · rw [if_neg hij]

/-- **C188** (few digits). If all distances are equal to a number with so few digits that `n - 1` times this number is
representable, then the secondary distances do not depend on this number: all are `1 - T(0)²`. Missing from the full claim:
all other numbers, for which it is false (`C188_violated`). -/
theorem C188_partial (F : Ieee) (L : ProbLib K) (hL : L.Ok (F.rounding K)) (T : XR K → XR K)
    (hT : Standardised (F.rounding K) L T) (hr : ExactRoots (F.rounding K) L) {n : ℕ} (hn : 2 ≤ n) {m : ℕ} {t : ℤ}
    (hm : (n - 1) * m ≤ 2 ^ F.p) (ht : F.emin ≤ t + (F.p - 1)) (he : (F.p : ℤ) + t ≤ F.emax) (hnp : n ≤ 2 ^ F.p)
    (hp : (F.p : ℤ) ≤ F.emax) (hmin : F.emin ≤ -24) :
    ∃ M : Fin n → Fin n → XR K, (F.rounding K).gaussi L (fun _ _ : Fin n => .fin ((m : K) * 2 ^ t)) "distance" none = .ok ⟨n, M⟩ ∧
      ∀ i j, i ≠ j → M i j = (F.rounding K).sub (.fin 1) ((F.rounding K).mul (T (.fin 0)) (T (.fin 0))) := by
  refine ⟨_, gaussi_square L _ _ (Or.inl rfl) none, ?_⟩
  set c : K := (m : K) * 2 ^ t with hc
  have hn1 : 0 < n - 1 := by omega
  have hn1' : (0 : K) < ((n - 1 : ℕ) : K) := by exact_mod_cast hn1
  have hround : ∀ k : ℕ, k * m ≤ 2 ^ F.p → F.round ((k : K) * c) = .fin (k * c) := by
    intro k hk
    have := Ieee.round_mul_zpow (K := K) F (m := k * m) (t := t) hk ht he
    push_cast at this
    rw [hc, ← mul_assoc]
    exact this
  have hmle : m ≤ 2 ^ F.p := (Nat.le_mul_of_pos_left m hn1).trans hm
  have hfc : F.round c = .fin c := by simpa using hround 1 (by simpa using hmle)
  have hsum : L.sum (List.replicate (n - 1) (.fin c)) = .fin (((n - 1 : ℕ) : K) * c) := by
    have := Ieee.sum_replicate' F (m := m) (t := t) (n := n - 1)
      (hL.sum_some_order (List.replicate (n - 1) (.fin c)) (fun a ha => by
        rw [List.eq_of_mem_replicate ha]; exact hfc)) hm ht he
    rw [this, hc, mul_assoc]
  have hsum0 : L.sum (List.replicate (n - 1) (.fin 0)) = .fin 0 := by
    have h0 := Ieee.sum_replicate' F (m := 0) (t := t) (n := n - 1) (s := L.sum (List.replicate (n - 1) (.fin (0 : K)))) (by
      simpa using hL.sum_some_order (List.replicate (n - 1) (.fin 0)) (fun a ha => by
        rw [List.eq_of_mem_replicate ha]; exact (F.rounding K).zero)) (by simp) ht he
    simpa using h0
  have hofn : (F.rounding K).ofNat (n - 1) = .fin ((n - 1 : ℕ) : K) := Ieee.round_natCast F (by omega) hp
  have hmean : (F.rounding K).div (.fin (((n - 1 : ℕ) : K) * c)) (.fin ((n - 1 : ℕ) : K)) = .fin c := by
    simp only [div, XR.div, if_neg hn1'.ne', up]
    rw [mul_div_cancel_left₀ _ hn1'.ne']
    exact hfc
  have hsub : (F.rounding K).sub (.fin c) (.fin c) = .fin 0 := by
    simp only [sub, XR.sub, XR.neg, XR.add, up, add_neg_cancel]
    exact (F.rounding K).zero
  have hpar : ∀ j : Fin n, ∃ s : K, (F.rounding K).gaussParams L (colVals (fun _ _ : Fin n => .fin c) (LS.trainInd n none) j) =
      (.fin c, .fin s) ∧ 0 < s := by
    intro j
    rw [colVals_const]
    have hvar : (F.rounding K).nanvar L 0 (List.replicate (n - 1) (.fin c)) = .fin 0 := by
      unfold nanvar
      rw [if_neg (by rw [List.length_replicate]; omega)]
      simp only [List.length_replicate, hsum, hofn, hmean, List.map_replicate, hsub, Nat.sub_zero]
      have : (F.rounding K).mul (.fin 0) (.fin 0) = .fin 0 := by
        simp only [mul, XR.mul, up, mul_zero]
        exact (F.rounding K).zero
      rw [this, hsum0]
      simp only [div, XR.div, if_neg hn1'.ne', up, zero_div]
      exact (F.rounding K).zero
    have hsq : L.sqrt (.fin 0) = .fin 0 := by
      have := hr 0 le_rfl (F.rounding K).zero (by rw [mul_zero]; exact (F.rounding K).zero)
      rwa [mul_zero] at this
    obtain ⟨y, hy, y0⟩ := round_pos (K := K) F (e := -24) hmin (by have := F.le_emax; omega) (x := 1 / 10 ^ 7)
      (by norm_num) (by norm_num)
    refine ⟨y, ?_, y0⟩
    unfold gaussParams nanmean noZero
    rw [hvar, hsq, if_pos rfl, List.length_replicate, hsum, hofn, hmean]
    exact congrArg _ hy
  have hent : ∀ i j : Fin n, (F.rounding K).gaussEntry L "distance" (.fin c)
      ((F.rounding K).gaussParams L (colVals (fun _ _ : Fin n => .fin c) (LS.trainInd n none) i)).1
      ((F.rounding K).gaussParams L (colVals (fun _ _ : Fin n => .fin c) (LS.trainInd n none) i)).2
      ((F.rounding K).gaussParams L (colVals (fun _ _ : Fin n => .fin c) (LS.trainInd n none) j)).1
      ((F.rounding K).gaussParams L (colVals (fun _ _ : Fin n => .fin c) (LS.trainInd n none) j)).2 =
      (F.rounding K).sub (.fin 1) ((F.rounding K).mul (T (.fin 0)) (T (.fin 0))) := by
    intro i j
    obtain ⟨s, e1, s0⟩ := hpar i
    obtain ⟨s', e2, s0'⟩ := hpar j
    have hz : ∀ s : K, 0 < s → (F.rounding K).div (.fin 0) (.fin s) = .fin 0 := by
      intro s hs
      simp only [div, XR.div, if_neg hs.ne', up, zero_div]
      exact (F.rounding K).zero
    rw [e1, e2]
    unfold gaussEntry
    rw [if_neg (by decide)]
    simp only
    rw [hT _ _ _ s0, hT _ _ _ s0', hsub, hz s s0, hz s' s0']
  intro i j hij
  unfold gaussiDense
  simp only
  rw [fillUpper_eq _ _ (fun i j => gaussEntry_float L "distance" _ _ _ _ _)]
  unfold mirrored
  rw [if_neg hij]
  split <;> exact hent _ _

end

/-- Three equal numbers: all orders give the same. -/
theorem sums_three {K : Type} [Field K] [LinearOrder K] (R : Rounding K) (a s : XR K) (h : R.Sums [a, a, a] s) :
    s = R.add (R.add a a) a := by
  rcases h with ⟨h, -⟩ | ⟨t, ht, rfl⟩
  · cases h
  have hb : ∀ b ∈ t.leaves, b = a := by
    intro b hb
    have := ht.mem_iff.1 hb
    simpa using this
  have hl := ht.length_eq
  simp only [List.length_cons, List.length_nil] at hl
  clear ht
  have one : ∀ t : SumTree K, (∀ b ∈ t.leaves, b = a) → t.leaves.length = 1 → t.eval R = a := by
    intro t hb hl
    cases t with
    | leaf b => exact hb b (by simp [SumTree.leaves])
    | node l r =>
      have := l.leaves_pos
      have := r.leaves_pos
      simp only [SumTree.leaves, List.length_append] at hl
      omega
  have two : ∀ t : SumTree K, (∀ b ∈ t.leaves, b = a) → t.leaves.length = 2 → t.eval R = R.add a a := by
    intro t hb hl
    cases t with
    | leaf b => simp [SumTree.leaves] at hl
    | node l r =>
      have := l.leaves_pos
      have := r.leaves_pos
      simp only [SumTree.leaves, List.length_append] at hl
      rw [SumTree.eval, one l (fun b h => hb b (by simp [SumTree.leaves, h])) (by omega),
        one r (fun b h => hb b (by simp [SumTree.leaves, h])) (by omega)]
  cases t with
  | leaf b => simp [SumTree.leaves] at hl
  | node l r =>
    have h1 := l.leaves_pos
    have h2 := r.leaves_pos
    simp only [SumTree.leaves, List.length_append] at hl
    have hbl : ∀ b ∈ l.leaves, b = a := fun b h => hb b (by simp [SumTree.leaves, h])
    have hbr : ∀ b ∈ r.leaves, b = a := fun b h => hb b (by simp [SumTree.leaves, h])
    rw [SumTree.eval]
    rcases (by omega : l.leaves.length = 1 ∨ l.leaves.length = 2) with h | h
    · rw [one l hbl h, two r hbr (by omega), add_comm']
    · rw [two l hbl h, one r hbr (by omega)]

/-- 0.1 as float64. -/
def tenth : ℚ := 3602879701896397 / 36028797018963968

theorem tenth_facts :
    Ieee.double.round tenth = .fin tenth ∧
    (Ieee.double.rounding ℚ).div ((Ieee.double.rounding ℚ).add ((Ieee.double.rounding ℚ).add (.fin tenth) (.fin tenth)) (.fin tenth))
      ((Ieee.double.rounding ℚ).ofNat 3) = .fin (tenth + 1 / 2 ^ 56) ∧
    (Ieee.double.rounding ℚ).mul ((Ieee.double.rounding ℚ).sub (.fin tenth) (.fin (tenth + 1 / 2 ^ 56)))
      ((Ieee.double.rounding ℚ).sub (.fin tenth) (.fin (tenth + 1 / 2 ^ 56))) = .fin (1 / 2 ^ 56 * (1 / 2 ^ 56)) ∧
    (Ieee.double.rounding ℚ).div ((Ieee.double.rounding ℚ).add ((Ieee.double.rounding ℚ).add (.fin (1 / 2 ^ 56 * (1 / 2 ^ 56)))
      (.fin (1 / 2 ^ 56 * (1 / 2 ^ 56)))) (.fin (1 / 2 ^ 56 * (1 / 2 ^ 56)))) ((Ieee.double.rounding ℚ).ofNat 3) =
      .fin (1 / 2 ^ 56 * (1 / 2 ^ 56)) ∧
    (Ieee.double.rounding ℚ).div ((Ieee.double.rounding ℚ).sub (.fin tenth) (.fin (tenth + 1 / 2 ^ 56))) (.fin (1 / 2 ^ 56)) =
      .fin (-1) ∧
    (Ieee.double.rounding ℚ).rnd (1 / 2 ^ 56) = .fin (1 / 2 ^ 56) ∧
    (Ieee.double.rounding ℚ).rnd (1 / 2 ^ 56 * (1 / 2 ^ 56)) = .fin (1 / 2 ^ 56 * (1 / 2 ^ 56)) := by
  decide +kernel

/-- **C188** (violated). Four objects, all distances equal. In float64 the secondary distances of `mutual_proximity_gaussi` are
`1 - T(0)²` if the distance is 0.5 but `1 - T(-1)²` if the distance is 0.1: the rounding error of the mean exceeds the
standard deviation, and the guard for zero deviations has no effect. The two values differ for any library in which `T(0)` is one
half and `T(-1)` at least three quarters (the true value being 0.84). -/
theorem C188_violated (L : ProbLib ℚ) (hL : L.Ok (Ieee.double.rounding ℚ)) (T : XR ℚ → XR ℚ)
    (hT : Standardised (Ieee.double.rounding ℚ) L T) (hr : ExactRoots (Ieee.double.rounding ℚ) L)
    (h0 : T (.fin 0) = .fin (1 / 2)) (h1 : ∃ y, T (.fin (-1)) = .fin y ∧ 3 / 4 ≤ y ∧ y ≤ 1) :
    ∃ M N : Fin 4 → Fin 4 → XR ℚ,
      (Ieee.double.rounding ℚ).gaussi L (fun _ _ : Fin 4 => .fin (1 / 2)) "distance" none = .ok ⟨4, M⟩ ∧
      (Ieee.double.rounding ℚ).gaussi L (fun _ _ : Fin 4 => .fin tenth) "distance" none = .ok ⟨4, N⟩ ∧
      ∀ i j, i ≠ j → M i j = .fin (3 / 4) ∧ ∃ y, N i j = .fin y ∧ y ≤ 1 / 2 := by
  obtain ⟨M, hM, hM'⟩ := C188_partial Ieee.double L hL T hT hr (n := 4) (by decide) (m := 1) (t := -1) (by decide) (by decide)
    (by decide) (by decide) (by decide) (by decide)
  have hhalf : ((1 : ℕ) : ℚ) * 2 ^ (-1 : ℤ) = 1 / 2 := by norm_num
  rw [hhalf] at hM
  refine ⟨M, _, hM, gaussi_square L _ _ (Or.inl rfl) none, ?_⟩
  obtain ⟨f1, f2, f3, f4, f5, f6, f7⟩ := tenth_facts
  have hpar : ∀ j : Fin 4, (Ieee.double.rounding ℚ).gaussParams L (colVals (fun _ _ : Fin 4 => .fin tenth) (LS.trainInd 4 none) j) =
      (.fin (tenth + 1 / 2 ^ 56), .fin (1 / 2 ^ 56)) := by
    intro j
    rw [colVals_const]
    have hs : L.sum (List.replicate (4 - 1) (.fin tenth)) = _ := sums_three _ (.fin tenth) _
      (hL.sum_some_order [.fin tenth, .fin tenth, .fin tenth] (by intro a ha; have : a = .fin tenth := by simpa using ha
                                                                  rw [this]; exact f1))
    have hs2 : L.sum (List.replicate (4 - 1) (.fin (1 / 2 ^ 56 * (1 / 2 ^ 56)))) = _ :=
      sums_three _ (.fin (1 / 2 ^ 56 * (1 / 2 ^ 56))) _
      (hL.sum_some_order [.fin (1 / 2 ^ 56 * (1 / 2 ^ 56)), .fin (1 / 2 ^ 56 * (1 / 2 ^ 56)), .fin (1 / 2 ^ 56 * (1 / 2 ^ 56))] (by
        intro a ha
        have : a = .fin (1 / 2 ^ 56 * (1 / 2 ^ 56)) := by simpa using ha
        rw [this]; exact f7))
    have hvar : (Ieee.double.rounding ℚ).nanvar L 0 (List.replicate (4 - 1) (.fin tenth)) = .fin (1 / 2 ^ 56 * (1 / 2 ^ 56)) := by
      unfold nanvar
      rw [if_neg (by rw [List.length_replicate]; decide)]
      simp only [List.length_replicate, hs, List.map_replicate]
      rw [show (4 - 1 : ℕ) = 3 from rfl, f2, f3]
      rw [show (3 : ℕ) = 4 - 1 from rfl, hs2]
      exact f4
    unfold gaussParams nanmean noZero
    rw [hvar, hr (1 / 2 ^ 56) (by norm_num) f6 f7, if_neg (by decide +kernel), List.length_replicate, hs]
    rw [show (4 - 1 : ℕ) = 3 from rfl, f2]
  obtain ⟨y, hy, y0, y1⟩ := h1
  intro i j hij
  constructor
  · rw [hM' i j hij, h0]
    decide +kernel
  · unfold gaussiDense
    simp only
    rw [fillUpper_eq _ _ (fun i j => gaussEntry_float L "distance" _ _ _ _ _)]
    unfold mirrored
    rw [if_neg hij]
    simp only [hpar]
    rw [ite_self]
    unfold gaussEntry
    rw [if_neg (by decide), hT _ _ _ (by norm_num), f5, hy]
    have hsq : (1 / 2 : ℚ) ≤ y * y := by nlinarith
    have hsq1 : y * y ≤ 1 := by nlinarith
    have hhalf : Ieee.double.round (1 / 2 : ℚ) = .fin (1 / 2) := by decide +kernel
    have hp := (Ieee.double.rounding ℚ).mono _ _ hsq
    change Ieee.double.round (1 / 2 : ℚ) ≤ Ieee.double.round (y * y) at hp
    rw [hhalf] at hp
    obtain ⟨z, hz, z0, z1⟩ := Ieee.round_le Ieee.double (x := y * y) (by linarith) hsq1 (Ieee.double.rounding ℚ).one
    rw [hz] at hp
    have hz' : (Ieee.double.rounding ℚ).mul (.fin y) (.fin y) = .fin z := hz
    rw [hz']
    have hp : (1 / 2 : ℚ) ≤ z := hp
    have e : (Ieee.double.rounding ℚ).sub (.fin 1) (.fin z) = Ieee.double.round (1 - z) := by
      simp [sub, XR.sub, XR.neg, XR.add, up, sub_eq_add_neg]; rfl
    rw [e]
    obtain ⟨w, hw, -, w1⟩ := Ieee.round_le Ieee.double (x := 1 - z) (b := 1 / 2) (by linarith) (by linarith) hhalf
    exact ⟨w, hw, w1⟩

/-! ### Without rounding -/

theorem colVals_fin {n : ℕ} (D : Fin n → Fin n → ℝ) (rows : List (Fin n)) (j : Fin n) :
    colVals (fun i j => .fin (D i j)) rows j = (MPPar.colVals D rows j).map .fin := by
  unfold colVals MPPar.colVals
  induction rows with
  | nil => rfl
  | cons i l ih =>
    rw [List.map_cons, List.filter_cons, List.filter_cons]
    by_cases h : i = j
    · rw [if_neg (by simp [Np.fillDiagonal, h]), if_neg (by simp [h])]
      exact ih
    · have e : Np.fillDiagonal (fun i j => XR.fin (D i j)) .nan i j = .fin (D i j) := by
        unfold Np.fillDiagonal; rw [if_neg (Fin.val_ne_of_ne h)]
      rw [e, if_pos (by simp), if_pos (by simp [h]), ih]
      rfl

theorem real_sum (F : MPPar.Dists) (l : List ℝ) : (ProbLib.real F).sum (l.map .fin) = .fin l.sum := by
  have : ∀ (l : List ℝ) (a : ℝ), (l.map XR.fin).foldl XR.add (.fin a) = .fin (a + l.sum) := by
    intro l
    induction l with
    | nil => intro a; simp
    | cons b l ih => intro a; simp only [List.map_cons, List.foldl_cons, XR.add, ih, List.sum_cons, add_assoc]
  have := this l 0
  rw [zero_add] at this
  exact this

theorem nanmean_exact (F : MPPar.Dists) (l : List ℝ) :
    (exact ℝ).nanmean (ProbLib.real F) (l.map .fin) = MPPar.nanmean l := by
  unfold nanmean MPPar.nanmean
  rw [real_sum, exact_div, List.length_map]
  change XR.div (.fin l.sum) (.fin (l.length : ℝ)) = _
  unfold XR.div
  simp only
  by_cases h : l = []
  · subst h; simp [XR.infMul]
  · have : (l.length : ℝ) ≠ 0 := by simpa using h
    rw [if_neg this, if_neg h]

theorem nanvar_exact (F : MPPar.Dists) (ddof : ℕ) (l : List ℝ) :
    (exact ℝ).nanvar (ProbLib.real F) ddof (l.map .fin) = MPPar.nanvar ddof l := by
  unfold nanvar MPPar.nanvar
  rw [List.length_map]
  by_cases h : l.length ≤ ddof
  · rw [if_pos h, if_pos h]
  rw [if_neg h, if_neg h]
  have hl : (l.length : ℝ) ≠ 0 := by
    have : 0 < l.length := by omega
    exact_mod_cast this.ne'
  have havg : (exact ℝ).div ((ProbLib.real F).sum (l.map .fin)) ((exact ℝ).ofNat l.length) = .fin (l.sum / l.length) := by
    rw [real_sum, exact_div]
    change XR.div (.fin l.sum) (.fin (l.length : ℝ)) = _
    unfold XR.div
    simp only
    rw [if_neg hl]
  simp only [havg]
  have hmap : (l.map XR.fin).map (fun x => (exact ℝ).mul ((exact ℝ).sub x (.fin (l.sum / l.length)))
      ((exact ℝ).sub x (.fin (l.sum / l.length)))) = (l.map (fun x => (x - l.sum / l.length) ^ 2)).map .fin := by
    rw [List.map_map, List.map_map]
    apply List.map_congr_left
    intro x _
    simp only [Function.comp, exact_mul, exact_sub, XR.sub, XR.neg, XR.add, XR.mul]
    congr 1
    ring
  rw [hmap, real_sum, exact_div]
  change XR.div _ (.fin ((l.length - ddof : ℕ) : ℝ)) = _
  unfold XR.div
  simp only
  have hd : ((l.length - ddof : ℕ) : ℝ) = (l.length : ℝ) - ddof := by
    rw [Nat.cast_sub (by omega)]
  have hne : ((l.length - ddof : ℕ) : ℝ) ≠ 0 := by
    have : l.length - ddof ≠ 0 := by omega
    exact_mod_cast this
  rw [if_neg hne, hd]

theorem noZero_exact (a : XR ℝ) : (exact ℝ).noZero a = MPPar.noZero a := by
  unfold noZero MPPar.noZero
  rw [exact_rnd]
  norm_num

/-- Without rounding this is the model of `Verif/MPPar/Model.lean`. -/
theorem gaussiDense_exact (F : MPPar.Dists) (metric : String) {n : ℕ} (D : Fin n → Fin n → ℝ) (train : List (Fin n)) :
    (exact ℝ).gaussiDense (ProbLib.real F) metric (fun i j => .fin (D i j)) train = MPPar.gaussiDense F metric D train := by
  unfold gaussiDense MPPar.gaussiDense gaussParams
  simp only [colVals_fin, nanmean_exact, nanvar_exact, noZero_exact]
  unfold fillUpper MPPar.fillUpper gaussEntry MPPar.gaussEntry
  simp only [exact_add, exact_mul, exact_sub]
  rfl

/-- Without rounding this is the model of `Verif/MPPar/Model.lean`. -/
theorem gammaiDense_exact (F : MPPar.Dists) (metric : String) {n : ℕ} (D : Fin n → Fin n → ℝ) (train : List (Fin n)) :
    (exact ℝ).gammaiDense (ProbLib.real F) metric (fun i j => .fin (D i j)) train = MPPar.gammaiDense F metric D train := by
  unfold gammaiDense MPPar.gammaiDense
  simp only [colVals_fin, nanmean_exact, nanvar_exact, noZero_exact]
  have hcdf : ∀ (x : ℝ) (a b : XR ℝ), (exact ℝ).gamCdf (ProbLib.real F) (.fin x) a b = MPPar.gamCdf F x a b := by
    intro x a b
    unfold gamCdf MPPar.gamCdf
    have hx : (if XR.flt (.fin x) (.fin 0) then (.fin 0 : XR ℝ) else .fin x) = .fin (if x < 0 then 0 else x) := by
      by_cases h : x < 0
      · rw [if_pos (show XR.flt (.fin x) (.fin 0) from h), if_pos h]
      · rw [if_neg (show ¬ XR.flt (.fin x) (.fin 0) from h), if_neg h]
    simp only [exact_div, hx]
    rfl
  unfold fillUpper MPPar.fillUpper gamEntry MPPar.gamEntry
  simp only [exact_add, exact_mul, exact_sub, exact_div, hcdf]
  rfl

/-! ### Examples -/

/-- A survival function. -/
def stepTail (z : XR ℚ) : XR ℚ := if z < .fin 0 then .fin (7 / 8) else .fin (1 / 2)

/-- A library with exact roots, adding from left to right. -/
noncomputable def ProbLib.step : ProbLib ℚ where
  sqrt a := match a with
    | .fin x => open Classical in if h : ∃ y : ℚ, 0 ≤ y ∧ y * y = x then .fin h.choose else .fin 1
    | _ => .nan
  sum l := l.foldl (Ieee.double.rounding ℚ).add (.fin 0)
  cdf _ _ s := if .fin 0 < s then .fin (1 / 2) else .nan
  sf x m s := if .fin 0 < s then stepTail ((Ieee.double.rounding ℚ).div ((Ieee.double.rounding ℚ).sub x m) s) else .nan
  gammainc _ _ := .fin (1 / 3)

/-- The assumptions of C187 and C188 can be met. -/
example : ProbLib.step.Ok (Ieee.double.rounding ℚ) ∧ Standardised (Ieee.double.rounding ℚ) ProbLib.step stepTail ∧
    ExactRoots (Ieee.double.rounding ℚ) ProbLib.step ∧ stepTail (.fin 0) = .fin (1 / 2) ∧
    (∃ y, stepTail (.fin (-1)) = .fin y ∧ 3 / 4 ≤ y ∧ y ≤ 1) := by
  refine ⟨⟨?_, ?_, ?_, ?_, ?_, ?_, ?_⟩, ?_, ?_, by decide +kernel, 7 / 8, by decide +kernel, by norm_num, by norm_num⟩
  · intro x _ hx
    unfold ProbLib.step
    simp only
    split
    · next h => exact ⟨_, rfl, h.choose_spec.1⟩
    · exact ⟨1, rfl, zero_le_one⟩
  · exact sums_foldl _
  · intro x m s
    unfold ProbLib.step NanOrUnit
    simp only
    split
    · exact Or.inr ⟨1 / 2, rfl, by norm_num, by norm_num⟩
    · exact Or.inl rfl
  · intro x m s
    unfold ProbLib.step NanOrUnit stepTail
    simp only
    split
    · split
      · exact Or.inr ⟨7 / 8, rfl, by norm_num, by norm_num⟩
      · exact Or.inr ⟨1 / 2, rfl, by norm_num, by norm_num⟩
    · exact Or.inl rfl
  · intro x m s hs
    have : (.fin 0 : XR ℚ) < .fin s := by simpa using hs
    simp [ProbLib.step, this]
  · intro x m s hs
    have : (.fin 0 : XR ℚ) < .fin s := by simpa using hs
    simp only [ProbLib.step, this, if_true, stepTail]
    split <;> simp
  · intro a x
    exact Or.inr ⟨1 / 3, rfl, by norm_num, by norm_num⟩
  · intro x m s hs
    have : (.fin 0 : XR ℚ) < .fin s := by simpa using hs
    simp [ProbLib.step, this]
  · intro y hy _ _
    have h : ∃ z : ℚ, 0 ≤ z ∧ z * z = y * y := ⟨y, hy, rfl⟩
    unfold ProbLib.step
    simp only
    rw [dif_pos h]
    congr 1
    exact (mul_self_inj h.choose_spec.1 hy).1 h.choose_spec.2

/-- Float64 satisfies the conditions of `C187_regular` for distances up to `2 ^ 484`. -/
example : (Ieee.double.p : ℤ) + (2 * (484 : ℕ) + 2) ≤ Ieee.double.emax ∧ Ieee.double.emin ≤ -24 ∧
    (∀ j : Fin 3, ∃ i ∈ LS.trainInd 3 (some [2]), i ≠ j) := by decide

end HubToolbox.Rounding
