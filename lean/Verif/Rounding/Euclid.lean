import Verif.Rounding.CosineError
import Verif.Rounding.LocalProps
import Verif.Rounding.DisSimProps

/-!
# C244, C245, C246: Euclidean distances in floating point

`euclidean_distance` subtracts first and squares then, hence its results have a small relative error, unless squares underflow.
`lp_norm` with `p=2` computes squared distances from norms and inner products, hence its results can be zero for vectors that
are far from each other.
-/

set_option autoImplicit false

namespace HubToolbox.Rounding

open Ieee (double)

section
variable {K : Type} [Field K] [LinearOrder K]

/-- An entry of `pdist(X, 'euclidean')`: the square root of the sum of the squared differences. -/
def pdistEntry (R : Rounding K) (L : CosLib K) {n d : ℕ} (X : Fin n → Fin d → XR K) (i j : Fin n) : XR K :=
  L.sqrt (L.sum (List.ofFn (fun f => R.mul (R.sub (X i f) (X j f)) (R.sub (X i f) (X j f)))))

/-- `euclidean_distance` (`/repo/hub_toolbox/distances.py` lines 39-44): `squareform` copies the upper triangle to the lower one
and leaves the diagonal zero. -/
def euclideanDistance (R : Rounding K) (L : CosLib K) {n d : ℕ} (X : Fin n → Fin d → XR K) (i j : Fin n) : XR K :=
  if i < j then R.pdistEntry L X i j else if j < i then R.pdistEntry L X j i else .fin 0

/-- `lp_norm(X, p=2)` (`/repo/hub_toolbox/distances.py` lines 81-83): `euclidean_distances` of scikit-learn, i.e. the square roots
of what `sqEuclid` describes. -/
def lpNorm2 (R : Rounding K) (L : VecLib K) (sqrt : XR K → XR K) {n d : ℕ} (X : Fin n → Fin d → K) (i j : Fin n) : XR K :=
  sqrt (R.sqEuclid L X i j)
end

/-! ### Norms -/

theorem vecNorm_le {d : ℕ} {x y : Fin d → ℝ} {c : ℝ} (hc : 0 ≤ c) (h : ∀ f, |y f| ≤ c * |x f|) :
    Spec.vecNorm y ≤ c * Spec.vecNorm x := by
  unfold Spec.vecNorm
  rw [show c = √(c ^ 2) from (Real.sqrt_sq hc).symm, ← Real.sqrt_mul (sq_nonneg _), Finset.mul_sum]
  apply Real.sqrt_le_sqrt
  apply Finset.sum_le_sum
  intro f _
  rw [← sq_abs (y f), ← sq_abs (x f), ← mul_pow]
  exact pow_le_pow_left₀ (abs_nonneg _) (h f) 2

theorem vecNorm_nonneg {d : ℕ} (x : Fin d → ℝ) : 0 ≤ Spec.vecNorm x := Real.sqrt_nonneg _

/-- What is assumed of the data: floats, coordinates differ not at all or by neither too little nor too much. -/
structure EucModerate {n d : ℕ} (X : Fin n → Fin d → ℝ) : Prop where
  float : ∀ i f, double.round (X i f) = .fin (X i f)
  within : ∀ i j f, Within (-199) 199 (X i f - X j f)

theorem pdistEntry_near (L : CosLib ℝ) (hL : L.Near) (h0 : L.sqrt (.fin 0) = .fin 0) {n d : ℕ} (hd : d ≤ 2 ^ 46)
    (X : Fin n → Fin d → ℝ) (hX : EucModerate X) (i j : Fin n) :
    ∃ z, (double.rounding ℝ).pdistEntry L (fun i f => .fin (X i f)) i j = .fin z ∧
      |z - Spec.vecNorm (fun f => X i f - X j f)| ≤ ((1 + u) ^ (d + 2) - 1) * Spec.vecNorm (fun f => X i f - X j f) := by
  have hu := u_pos
  have hu' := u_le
  have hsub : ∀ f, ∃ z, (double.rounding ℝ).sub (.fin (X i f)) (.fin (X j f)) = .fin z ∧
      |z - (X i f - X j f)| ≤ u * |X i f - X j f| := by
    intro f
    have hb : |X i f + -X j f| ≤ 2 ^ double.emax := by
      rw [← sub_eq_add_neg]
      rcases hX.within i j f with h | h
      · rw [h, abs_zero]; exact (zpow_pos two_pos _).le
      · exact h.2.trans (zpow_le_zpow_right₀ one_le_two (by decide))
    obtain ⟨z, hz, -, he⟩ := Ieee.add_float double (hX.float i f) (Ieee.neg_float double (hX.float j f)) hb
    rw [← sub_eq_add_neg] at he
    exact ⟨z, hz, he⟩
  choose y hy hye using hsub
  set x : Fin d → ℝ := fun f => X i f - X j f with hx
  have hyx : ∀ f, |y f| ≤ (1 + u) * |x f| := by
    intro f
    have h1 := abs_add_le (y f - x f) (x f)
    rw [sub_add_cancel] at h1
    have h2 := hye f
    change |y f - x f| ≤ u * |x f| at h2
    linarith
  have hxy : ∀ f, (1 - u) * |x f| ≤ |y f| := by
    intro f
    have h1 := abs_add_le (x f - y f) (y f)
    rw [sub_add_cancel, abs_sub_comm (x f) (y f)] at h1
    have h2 := hye f
    change |y f - x f| ≤ u * |x f| at h2
    linarith
  have hw : ∀ f, Within (-200) 200 (y f) := by
    intro f
    have e1 : (2 : ℝ) ^ (-200 : ℤ) * 2 = 2 ^ (-199 : ℤ) := by rw [← zpow_add_one₀ two_ne_zero]; norm_num
    have e2 : (2 : ℝ) ^ (199 : ℤ) * 2 = 2 ^ (200 : ℤ) := by rw [← zpow_add_one₀ two_ne_zero]; norm_num
    rcases hX.within i j f with h | h
    · left
      have h1 := hyx f
      change x f = 0 at h
      rw [h, abs_zero, mul_zero] at h1
      exact abs_nonpos_iff.1 h1
    · right
      obtain ⟨ha, hb⟩ := h
      change _ ≤ |x f| at ha
      change |x f| ≤ _ at hb
      have h1 := hyx f
      have h2 := hxy f
      constructor <;> nlinarith [abs_nonneg (x f)]
  have hy' : (fun f => (double.rounding ℝ).mul ((double.rounding ℝ).sub (.fin (X i f)) (.fin (X j f)))
      ((double.rounding ℝ).sub (.fin (X i f)) (.fin (X j f)))) = fun f => (double.rounding ℝ).mul (.fin (y f)) (.fin (y f)) := by
    funext f
    rw [hy f]
  unfold pdistEntry
  simp only [hy']
  set N := Spec.vecNorm x with hN
  have hN0 : 0 ≤ N := vecNorm_nonneg x
  by_cases hz : y = 0
  · have hx0 : x = 0 := by
      funext f
      have h1 := hxy f
      rw [hz, Pi.zero_apply, abs_zero] at h1
      have : |x f| ≤ 0 := by nlinarith [abs_nonneg (x f)]
      exact abs_nonpos_iff.1 this
    obtain ⟨s, hs, -, hse⟩ := products_error hd y y (fun f => by
        left; rw [hz]; simp)
      (hL.sum_some_order _ (by
        intro a ha
        obtain ⟨f, rfl⟩ := List.mem_ofFn.1 ha
        exact float_up _))
    rw [hs]
    have : s = 0 := by
      rw [hz] at hse
      simpa using hse
    refine ⟨0, by rw [this, h0], ?_⟩
    rw [hN, hx0, Dist.norm2_zero]
    simp
  · obtain ⟨r, hr, hre⟩ := norm_error L hL hd y hw hz
    refine ⟨r, hr, ?_⟩
    have hMN : Spec.vecNorm y ≤ (1 + u) * N := vecNorm_le (by linarith) hyx
    have hNM : (1 - u) * N ≤ Spec.vecNorm y := by
      have h1 : N ≤ 1 / (1 - u) * Spec.vecNorm y := by
        apply vecNorm_le (by
          rw [one_div]; exact inv_nonneg.2 (by linarith))
        intro f
        rw [one_div, ← div_eq_inv_mul, le_div_iff₀ (by linarith), mul_comm]
        exact hxy f
      rw [one_div, ← div_eq_inv_mul, le_div_iff₀ (by linarith)] at h1
      linarith
    have hd1 : |Spec.vecNorm y - N| ≤ u * N := abs_le.2 ⟨by linarith, by linarith⟩
    have hg : 0 ≤ (1 + u) ^ (d + 1) - 1 := by
      have : 1 ≤ (1 + u) ^ (d + 1) := one_le_pow₀ (by linarith)
      linarith
    calc |r - N| ≤ |r - Spec.vecNorm y| + |Spec.vecNorm y - N| := abs_sub_le _ _ _
      _ ≤ ((1 + u) ^ (d + 1) - 1) * ((1 + u) * N) + u * N := by
          have := mul_le_mul_of_nonneg_left hMN hg
          linarith
      _ = ((1 + u) ^ (d + 2) - 1) * N := by ring

theorem pow_two_le {d : ℕ} (hd : d ≤ 2 ^ 46) : (1 + u) ^ (d + 2) - 1 ≤ 2 * (d + 2) * u ∧ 2 * ((d : ℝ) + 2) * u ≤ 1 / 16 := by
  have hu := u_pos
  have h1 := du_le hd
  have hu3 : u ≤ 1 / 64 := by nlinarith [Nat.cast_nonneg (α := ℝ) d]
  have h2 : ((d : ℝ) + 2) * u ≤ 1 / 32 := by nlinarith
  refine ⟨?_, by nlinarith⟩
  have h3 := pow_le (m := d + 2) (by push_cast; linarith)
  push_cast at h3
  set t := ((d : ℝ) + 2) * u with ht
  have ht0 : 0 ≤ t := by positivity
  have h4 : 1 / (1 - t) ≤ 1 + 2 * t := by
    rw [div_le_iff₀ (by linarith)]
    nlinarith
  calc (1 + u) ^ (d + 2) - 1 ≤ 2 * t := by linarith
    _ = 2 * (d + 2) * u := by rw [ht]; ring

/-- **C244.** The relative error of the distances is at most `2 (d + 2)` units in the last place, `d` the number of features. -/
theorem C244 (L : CosLib ℝ) (hL : L.Near) (h0 : L.sqrt (.fin 0) = .fin 0) {n d : ℕ} (hd : d ≤ 2 ^ 46) (X : Fin n → Fin d → ℝ)
    (hX : EucModerate X) (i j : Fin n) :
    ∃ z, (double.rounding ℝ).euclideanDistance L (fun i f => .fin (X i f)) i j = .fin z ∧
      |z - √(∑ f, (X i f - X j f) ^ 2)| ≤ 2 * (d + 2) * 2 ^ (-53 : ℤ) * √(∑ f, (X i f - X j f) ^ 2) := by
  have hmono : ∀ z N : ℝ, 0 ≤ N → |z - N| ≤ ((1 + u) ^ (d + 2) - 1) * N → |z - N| ≤ 2 * (d + 2) * 2 ^ (-53 : ℤ) * N := by
    intro z N hN h
    rw [← u_eq]
    exact h.trans (mul_le_mul_of_nonneg_right (pow_two_le hd).1 hN)
  unfold euclideanDistance
  split_ifs with h1 h2
  · obtain ⟨z, hz, he⟩ := pdistEntry_near L hL h0 hd X hX i j
    exact ⟨z, hz, hmono _ _ (Real.sqrt_nonneg _) he⟩
  · obtain ⟨z, hz, he⟩ := pdistEntry_near L hL h0 hd X hX j i
    refine ⟨z, hz, ?_⟩
    have e : Spec.vecNorm (fun f => X j f - X i f) = √(∑ f, (X i f - X j f) ^ 2) := by
      unfold Spec.vecNorm
      congr 1
      exact Finset.sum_congr rfl fun f _ => by ring
    rw [e] at he
    exact hmono _ _ (Real.sqrt_nonneg _) he
  · obtain rfl : i = j := le_antisymm (not_lt.1 h2) (not_lt.1 h1)
    exact ⟨0, rfl, by simp⟩

/-- **C244**, symmetry: exact, for all data. -/
theorem C244_symm {K : Type} [Field K] [LinearOrder K] (R : Rounding K) (L : CosLib K) {n d : ℕ} (X : Fin n → Fin d → XR K)
    (i j : Fin n) : R.euclideanDistance L X i j = R.euclideanDistance L X j i := by
  unfold euclideanDistance
  rcases lt_trichotomy i j with h | h | h
  · rw [if_pos h, if_neg h.not_gt, if_pos h]
  · rw [h]
  · rw [if_neg h.not_gt, if_pos h, if_pos h]

/-- **C244**, order: distances that differ by more than the errors are in the right order. -/
theorem C244_order (L : CosLib ℝ) (hL : L.Near) (h0 : L.sqrt (.fin 0) = .fin 0) {n d : ℕ} (hd : d ≤ 2 ^ 46)
    (X : Fin n → Fin d → ℝ) (hX : EucModerate X) (i j k l : Fin n)
    (h : (1 + 8 * (d + 2) * 2 ^ (-53 : ℤ)) * √(∑ f, (X i f - X j f) ^ 2) < √(∑ f, (X k f - X l f) ^ 2)) :
    XR.flt ((double.rounding ℝ).euclideanDistance L (fun i f => .fin (X i f)) i j)
      ((double.rounding ℝ).euclideanDistance L (fun i f => .fin (X i f)) k l) := by
  obtain ⟨z, hz, he⟩ := C244 L hL h0 hd X hX i j
  obtain ⟨y, hy, hf⟩ := C244 L hL h0 hd X hX k l
  rw [hz, hy]
  show z < y
  have hu := u_pos
  rw [← u_eq] at h he hf
  have ht := (pow_two_le hd).2
  set t := 2 * ((d : ℝ) + 2) * u with htdef
  have ht0 : 0 < t := by positivity
  rw [show 8 * ((d : ℝ) + 2) * u = 4 * t by rw [htdef]; ring] at h
  set a := √(∑ f, (X i f - X j f) ^ 2)
  set b := √(∑ f, (X k f - X l f) ^ 2)
  have ha : 0 ≤ a := Real.sqrt_nonneg _
  have h1 := (abs_le.1 he).2
  have h2 := (abs_le.1 hf).1
  have h3 : (1 - t) * ((1 + 4 * t) * a) < (1 - t) * b := mul_lt_mul_of_pos_left h (by linarith)
  have h4 : (1 + t) * a ≤ (1 - t) * ((1 + 4 * t) * a) := by
    rw [← mul_assoc]
    apply mul_le_mul_of_nonneg_right _ ha
    nlinarith
  nlinarith

/-- **C245**, what holds: for coordinates which differ not at all or by at least `2 ^ -199`, the distance is zero exactly for equal
vectors. -/
theorem C245_partial (L : CosLib ℝ) (hL : L.Near) (h0 : L.sqrt (.fin 0) = .fin 0) {n d : ℕ} (hd : d ≤ 2 ^ 46)
    (X : Fin n → Fin d → ℝ) (hX : EucModerate X) (i j : Fin n) :
    (double.rounding ℝ).euclideanDistance L (fun i f => .fin (X i f)) i j = .fin 0 ↔ X i = X j := by
  obtain ⟨z, hz, he⟩ := C244 L hL h0 hd X hX i j
  rw [← u_eq] at he
  have ht := (pow_two_le hd).2
  rw [hz]
  have hN : √(∑ f, (X i f - X j f) ^ 2) = Spec.vecNorm (fun f => X i f - X j f) := rfl
  constructor
  · intro h
    rw [XR.fin.inj h, zero_sub, abs_neg, abs_of_nonneg (Real.sqrt_nonneg _), hN] at he
    by_contra hne
    have hx : (fun f => X i f - X j f) ≠ 0 := by
      intro h
      exact hne (funext fun f => sub_eq_zero.1 (congrFun h f))
    have := Dist.norm2_ne_zero hx
    nlinarith
  · intro h
    have : (fun f => X i f - X j f) = 0 := by funext f; rw [h]; simp
    rw [hN, this, Dist.norm2_zero, mul_zero, sub_zero] at he
    rw [abs_nonpos_iff.1 he]

/-- Two numbers which differ, but not by much. -/
noncomputable def near2 : Fin 2 → Fin 1 → ℝ := ![![0], ![2 ^ (-600 : ℤ)]]

/-- **C245** does not hold: the squared difference underflows. -/
theorem C245_violated (L : CosLib ℝ) (hL : L.Near) (h0 : L.sqrt (.fin 0) = .fin 0) :
    (∀ i f, double.round (near2 i f) = .fin (near2 i f)) ∧ near2 0 ≠ near2 1 ∧
      (double.rounding ℝ).euclideanDistance L (fun i f => .fin (near2 i f)) 0 1 = .fin 0 := by
  have hz : double.round (0 : ℝ) = .fin 0 := (double.rounding ℝ).zero
  have hp : double.round ((2 : ℝ) ^ (-600 : ℤ)) = .fin (2 ^ (-600 : ℤ)) :=
    Ieee.round_zpow double (by decide) (by decide)
  refine ⟨?_, ?_, ?_⟩
  · intro i f
    fin_cases i <;> fin_cases f
    · exact hz
    · exact hp
  · intro h
    exact (zpow_pos (two_pos (α := ℝ)) (-600)).ne (congrFun h 0)
  · have hs : (double.rounding ℝ).sub (.fin (near2 0 0)) (.fin (near2 1 0)) = .fin (-2 ^ (-600 : ℤ)) := by
      show double.round (near2 0 0 + -near2 1 0) = _
      rw [show near2 0 0 + -near2 1 0 = -(2 : ℝ) ^ (-600 : ℤ) by simp [near2]]
      exact Ieee.neg_float double hp
    have hm : (double.rounding ℝ).mul (.fin (-(2 : ℝ) ^ (-600 : ℤ))) (.fin (-2 ^ (-600 : ℤ))) = .fin 0 := by
      show double.round (-(2 : ℝ) ^ (-600 : ℤ) * -2 ^ (-600 : ℤ)) = _
      rw [neg_mul_neg, ← zpow_add₀ two_ne_zero]
      apply Ieee.round_tiny double
      · exact (zpow_pos two_pos _).le
      · exact zpow_lt_zpow_right₀ one_lt_two (by decide)
    unfold euclideanDistance pdistEntry
    rw [if_pos (by decide)]
    have hl : (List.ofFn fun f : Fin 1 => (double.rounding ℝ).mul
        ((double.rounding ℝ).sub (.fin (near2 0 f)) (.fin (near2 1 f)))
        ((double.rounding ℝ).sub (.fin (near2 0 f)) (.fin (near2 1 f)))) = [.fin 0] := by
      rw [List.ofFn_succ, List.ofFn_zero, hs, hm]
    rw [hl]
    have := hL.sum_some_order [.fin 0] (by
      intro a ha
      rw [List.mem_singleton.1 ha]
      exact hz)
    rw [sums_one _ _ _ this, h0]

/-! ### `lp_norm` with `p=2` -/

/-- Two different numbers, one of them `2 ^ 30`. -/
def far2 : Fin 2 → Fin 1 → ℚ := ![![2 ^ 30], ![2 ^ 30 + 1]]

/-- **C246** does not hold: the distance of `2 ^ 30` and `2 ^ 30 + 1` is zero. -/
theorem C246_violated (L : VecLib ℚ) (hL : L.Ok double) (sqrt : XR ℚ → XR ℚ) (h0 : sqrt (.fin 0) = .fin 0) :
    (∀ i f, double.round (far2 i f) = .fin (far2 i f)) ∧ far2 1 0 - far2 0 0 = 1 ∧
      (double.rounding ℚ).lpNorm2 L sqrt far2 0 1 = .fin 0 := by
  refine ⟨by decide +kernel, by decide +kernel, ?_⟩
  have h : (double.rounding ℚ).sqEuclid L far2 0 1 = .fin 0 := by
    unfold sqEuclid Np.fillDiagonal
    rw [if_neg (by decide)]
    simp only [row, List.ofFn_succ, List.ofFn_zero, hL.dot_single, hL.sq_single]
    decide +kernel
  unfold lpNorm2
  rw [h, h0]

/-- **C246**, what holds: for integer coordinates of at most `B` with `4 m B ^ 2 ≤ 2 ^ 53` the squared distances are exact, hence the
distance is zero exactly for equal vectors. -/
theorem C246_partial {K : Type} [Field K] [LinearOrder K] [IsStrictOrderedRing K] [FloorRing K] (L : VecLib K) (hL : L.Ok double)
    (sqrt : XR K → XR K) (h0 : ∀ x : K, 0 ≤ x → (sqrt (.fin x) = .fin 0 ↔ x = 0)) {n m : ℕ} (X : Fin n → Fin m → ℤ) (B : ℤ)
    (hX : ∀ i f, |X i f| ≤ B) (hB : 4 * (m * B ^ 2) ≤ 2 ^ 53) (i j : Fin n) :
    (double.rounding K).lpNorm2 L sqrt (fun i f => (X i f : K)) i j = sqrt (.fin ((∑ f, (X i f - X j f) ^ 2 : ℤ) : K)) ∧
      ((double.rounding K).lpNorm2 L sqrt (fun i f => (X i f : K)) i j = .fin 0 ↔ X i = X j) := by
  have h : (double.rounding K).sqEuclid L (fun i f => (X i f : K)) i j = .fin ((∑ f, (X i f - X j f) ^ 2 : ℤ) : K) := by
    by_cases hij : i = j
    · subst hij
      simp [sqEuclid, Np.fillDiagonal]
    · exact sqEuclid_int double L hL X B hX (by decide) hB i j hij
  unfold lpNorm2
  rw [h]
  refine ⟨rfl, ?_⟩
  have hn : (0 : ℤ) ≤ ∑ f, (X i f - X j f) ^ 2 := Finset.sum_nonneg fun f _ => sq_nonneg _
  rw [h0 _ (by exact_mod_cast hn), Int.cast_eq_zero, Finset.sum_eq_zero_iff_of_nonneg (fun f _ => sq_nonneg _)]
  constructor
  · intro h
    funext f
    exact sub_eq_zero.1 (pow_eq_zero_iff two_ne_zero |>.1 (h f (Finset.mem_univ f)))
  · intro h f _
    rw [h, sub_self]
    rfl

/-! ### The assumptions hold -/

theorem CosLib.rounded_sqrt_zero : CosLib.rounded.sqrt (.fin 0) = .fin 0 := by
  show (double.rounding ℝ).up (XR.sqrt (.fin 0)) = _
  have : XR.sqrt (.fin 0) = .fin 0 := by simp [XR.sqrt]
  rw [this]
  exact (double.rounding ℝ).zero

theorem plane3_eucModerate : EucModerate plane3 where
  float := plane3_moderate.float
  within i j f := by
    have h0 : (2 : ℝ) ^ (-199 : ℤ) ≤ 1 := zpow_le_one_of_nonpos₀ one_le_two (by norm_num)
    have h1 : (8 : ℝ) ≤ 2 ^ (199 : ℤ) := by
      have : (2 : ℝ) ^ (3 : ℤ) ≤ 2 ^ (199 : ℤ) := zpow_le_zpow_right₀ one_le_two (by norm_num)
      refine le_trans ?_ this
      norm_num
    fin_cases i <;> fin_cases j <;> fin_cases f <;>
      first
      | (refine Or.inl ?_; norm_num [plane3]; done)
      | (refine Or.inr ⟨h0.trans ?_, le_trans ?_ h1⟩ <;> norm_num [plane3])

/-- The hypotheses of `C244` and `C245_partial` hold for correctly rounded functions and three vectors in the plane. -/
example := C244 CosLib.rounded CosLib.rounded_near CosLib.rounded_sqrt_zero (by norm_num) plane3 plane3_eucModerate 0 1
example := C245_partial CosLib.rounded CosLib.rounded_near CosLib.rounded_sqrt_zero (by norm_num) plane3 plane3_eucModerate 0 1
example := C245_violated CosLib.rounded CosLib.rounded_near CosLib.rounded_sqrt_zero

/-- The distance of the second and third vector, `√10`, is less than that of the first and third, `√34`. -/
example := C244_order CosLib.rounded CosLib.rounded_near CosLib.rounded_sqrt_zero (by norm_num) plane3 plane3_eucModerate 1 2 0 2 (by
  have e1 : ∑ f, (plane3 1 f - plane3 2 f) ^ 2 = 10 := by
    rw [Fin.sum_univ_two]
    show ((1 : ℝ) - -2) ^ 2 + (0 - 1) ^ 2 = 10
    norm_num
  have e2 : ∑ f, (plane3 0 f - plane3 2 f) ^ 2 = 34 := by
    rw [Fin.sum_univ_two]
    show ((3 : ℝ) - -2) ^ 2 + (4 - 1) ^ 2 = 34
    norm_num
  rw [e1, e2]
  have h1 : √(10 : ℝ) ≤ 4 := by rw [Real.sqrt_le_iff]; norm_num
  have h2 : 5 < √(34 : ℝ) := by rw [Real.lt_sqrt (by norm_num)]; norm_num
  have h3 : (1 + 8 * ((2 : ℕ) + 2) * 2 ^ (-53 : ℤ) : ℝ) ≤ 5 / 4 := by norm_num
  have h4 := mul_le_mul h3 h1 (Real.sqrt_nonneg 10) (by norm_num)
  exact h4.trans_lt (by linarith))

/-- The hypotheses of `C246_violated` and `C246_partial` hold for loops and a square root. -/
example := C246_violated (VecLib.loop (double.rounding ℚ)) (loop_ok double) (fun a => a) rfl
example := C246_partial (VecLib.loop (double.rounding ℝ)) (loop_ok double) XR.sqrt (fun x hx => by
    rw [show XR.sqrt (.fin x) = .fin √x by simp [XR.sqrt, hx, hx.not_gt], XR.fin.injEq, Real.sqrt_eq_zero hx])
  ![![3, 4], ![1, 0]] 4 (by decide) (by norm_num) 0 1

end HubToolbox.Rounding
