import Verif.Rounding.NicdmRegular
import Verif.Rounding.LocalError
import Verif.LS.Props

/-!
# C214: accuracy of NICDM in double precision
-/

set_option autoImplicit false

namespace HubToolbox.Rounding

open HubToolbox Ieee

/-! ### Logarithmic errors: products, quotients and roots add them -/

/-- Positive numbers whose logarithms differ by at most `ε`. -/
structure Close (ε x y : ℝ) : Prop where
  left : 0 < x
  right : 0 < y
  near : |Real.log y - Real.log x| ≤ ε

theorem Close.mono {ε δ x y : ℝ} (h : Close ε x y) (hd : ε ≤ δ) : Close δ x y := ⟨h.left, h.right, h.near.trans hd⟩

theorem Close.trans {ε δ x y z : ℝ} (h : Close ε x y) (h' : Close δ y z) : Close (ε + δ) x z := by
  refine ⟨h.left, h'.right, ?_⟩
  have := abs_sub_le (Real.log z) (Real.log y) (Real.log x)
  linarith [h.near, h'.near]

theorem Close.refl {x : ℝ} (h : 0 < x) : Close 0 x x := ⟨h, h, by simp⟩

theorem Close.mul {ε δ x y a b : ℝ} (h : Close ε x y) (h' : Close δ a b) : Close (ε + δ) (x * a) (y * b) := by
  refine ⟨mul_pos h.left h'.left, mul_pos h.right h'.right, ?_⟩
  rw [Real.log_mul h.right.ne' h'.right.ne', Real.log_mul h.left.ne' h'.left.ne']
  have := abs_add_le (Real.log y - Real.log x) (Real.log b - Real.log a)
  rw [show Real.log y + Real.log b - (Real.log x + Real.log a) = Real.log y - Real.log x + (Real.log b - Real.log a) by ring]
  linarith [h.near, h'.near]

theorem Close.div {ε δ x y a b : ℝ} (h : Close ε x y) (h' : Close δ a b) : Close (ε + δ) (x / a) (y / b) := by
  refine ⟨div_pos h.left h'.left, div_pos h.right h'.right, ?_⟩
  rw [Real.log_div h.right.ne' h'.right.ne', Real.log_div h.left.ne' h'.left.ne']
  have := abs_add_le (Real.log y - Real.log x) (Real.log a - Real.log b)
  rw [show Real.log y - Real.log b - (Real.log x - Real.log a) = Real.log y - Real.log x + (Real.log a - Real.log b) by ring]
  rw [abs_sub_comm (Real.log a)] at this
  linarith [h.near, h'.near]

theorem Close.sqrt {ε x y : ℝ} (h : Close ε x y) : Close (ε / 2) √x √y := by
  refine ⟨Real.sqrt_pos.2 h.left, Real.sqrt_pos.2 h.right, ?_⟩
  rw [Real.log_sqrt h.right.le, Real.log_sqrt h.left.le, ← sub_div, abs_div, abs_two]
  linarith [h.near]

theorem close_of_rel {ε x y : ℝ} (hx : 0 < x) (hε : ε ≤ 1 / 2) (h : |y - x| ≤ ε * x) : Close (2 * ε) x y := by
  have hε0 : 0 ≤ ε := by
    have := (abs_nonneg _).trans h
    by_contra hn
    nlinarith
  rw [abs_le] at h
  have hy : (1 - ε) * x ≤ y := by linarith [h.1]
  have h1 : 0 < 1 - ε := by linarith
  have hy0 : 0 < y := (mul_pos h1 hx).trans_le hy
  refine ⟨hx, hy0, ?_⟩
  rw [← Real.log_div hy0.ne' hx.ne']
  have hq : 0 < y / x := div_pos hy0 hx
  have u := Real.log_le_sub_one_of_pos hq
  have l := Real.one_sub_inv_le_log_of_pos hq
  have q1 : y / x ≤ 1 + ε := by rw [div_le_iff₀ hx]; linarith [h.2]
  have q0 : 1 - ε ≤ y / x := by rw [le_div_iff₀ hx]; exact hy
  have q2 : (y / x)⁻¹ ≤ (1 - ε)⁻¹ := inv_anti₀ h1 q0
  have q3 : (1 - ε)⁻¹ ≤ 1 + 2 * ε := by
    rw [inv_le_iff_one_le_mul₀ h1]
    nlinarith
  rw [abs_le]
  constructor <;> linarith

theorem Close.rel {ε x y : ℝ} (h : Close ε x y) (hε : ε ≤ 1) : |y - x| ≤ 2 * ε * x := by
  have h1 := Real.abs_exp_sub_one_le (h.near.trans hε)
  have e : Real.exp (Real.log y - Real.log x) = y / x := by
    rw [Real.exp_sub, Real.exp_log h.right, Real.exp_log h.left]
  rw [e] at h1
  have e2 : y - x = (y / x - 1) * x := by field_simp [h.left.ne']
  rw [e2, abs_mul, abs_of_pos h.left]
  refine mul_le_mul_of_nonneg_right ?_ h.left.le
  linarith [h.near]

/-- Rounding. -/
theorem close_round {a b : ℤ} (ha : -1022 ≤ a) (hb : b ≤ 1023) {x y : ℝ} (h0 : 2 ^ a ≤ x) (h1 : x ≤ 2 ^ b)
    (h : double.round x = .fin y) : Close (2 * u) x y := by
  have hx : 0 < x := (zpow_pos two_pos _).trans_le h0
  obtain ⟨z, hz, -, he⟩ := within_round ha hb (x := x) (Or.inr (by rw [abs_of_pos hx]; exact ⟨h0, h1⟩))
  rw [h] at hz
  obtain rfl := XR.fin.inj hz
  rw [abs_of_pos hx] at he
  exact close_of_rel hx (by linarith [u_le]) he

/-- Absolute error of rounding moderate numbers. -/
theorem round_abs_error {x y : ℝ} (hx : |x| < 2 ^ 9) (h : double.round x = .fin y) : |y - x| ≤ 256 * u := by
  have hy : y = double.nearest x := by
    unfold Ieee.round at h
    split_ifs at h
    exact (XR.fin.inj h).symm
  rw [hy]
  refine (double.abs_nearest_sub x).trans ?_
  have hs : double.spacing x ≤ -44 := by
    unfold Ieee.spacing
    have hl : Int.log 2 |x| ≤ 8 := by
      rcases eq_or_ne x 0 with rfl | h0
      · simp
      · have l := Int.zpow_log_le_self (b := 2) (by norm_num) (abs_pos.2 h0)
        push_cast at l
        by_contra hlt
        have h2 : (2 : ℝ) ^ (9 : ℤ) ≤ 2 ^ Int.log 2 |x| := zpow_le_zpow_right₀ one_le_two (by omega)
        have h3 : (2 : ℝ) ^ (9 : ℤ) = 2 ^ 9 := by norm_num
        rw [h3] at h2
        linarith
    have : double.emin = -1022 := rfl
    have : double.p = 53 := rfl
    have := max_le hl (show double.emin ≤ 8 by decide)
    omega
  have h1 : (2 : ℝ) ^ double.spacing x ≤ 2 ^ (-44 : ℤ) := zpow_le_zpow_right₀ one_le_two hs
  have h2 : (2 : ℝ) ^ (-44 : ℤ) / 2 = 256 * u := by rw [u_eq]; norm_num
  rw [← h2]
  exact div_le_div_of_nonneg_right h1 two_pos.le

/-- Powers of `1 + u` for lengths of sums. -/
theorem pow_sub_one_le {n : ℕ} (h0 : 0 < n) (hn : n ≤ 2 ^ 40) : (1 + u) ^ (n - 1) - 1 ≤ 2 * ((n : ℝ) - 1) * u := by
  have hu := u_pos
  have hd := du_le (d := n) (hn.trans (by norm_num))
  have hc : ((n - 1 : ℕ) : ℝ) = (n : ℝ) - 1 := by rw [Nat.cast_sub h0, Nat.cast_one]
  have h1 : (1 : ℝ) ≤ n := by exact_mod_cast h0
  have hm : ((n : ℝ) - 1) * u ≤ 1 / 64 := by nlinarith
  have hm0 : 0 ≤ ((n : ℝ) - 1) * u := mul_nonneg (by linarith) hu.le
  have hp := pow_le (m := n - 1) (by rw [hc]; linarith)
  rw [hc] at hp
  have : 1 / (1 - ((n : ℝ) - 1) * u) ≤ 1 + 2 * (((n : ℝ) - 1) * u) := by
    rw [div_le_iff₀ (by linarith)]
    nlinarith
  linarith

/-! ### What is assumed of numpy -/

/-- What is assumed of the functions of numpy in float64: sums add in some order, logarithms are right up to `2^-45`,
exponentials and roots up to two units of roundoff, for arguments which are neither tiny nor huge. -/
structure Lib.Accurate (L : Lib) : Prop where
  sum_some_order : ∀ l, (∀ a ∈ l, (double.rounding ℝ).Float a) → (double.rounding ℝ).Sums l (L.sum l)
  log_near : ∀ x : ℝ, 2 ^ (-200 : ℤ) ≤ x → x ≤ 2 ^ (200 : ℤ) →
    ∃ y, L.log (.fin x) = .fin y ∧ double.round y = .fin y ∧ |y - Real.log x| ≤ 256 * u
  exp_near : ∀ y : ℝ, |y| ≤ 256 → ∃ z, L.exp (.fin y) = .fin z ∧ |z - Real.exp y| ≤ 2 * u * Real.exp y
  sqrt_near : ∀ x : ℝ, 2 ^ (-400 : ℤ) ≤ x → x ≤ 2 ^ (400 : ℤ) → ∃ z, L.sqrt (.fin x) = .fin z ∧ |z - √x| ≤ 2 * u * √x

theorem u_tiny : u ≤ 1 / 2 ^ 53 := by rw [u_eq]; norm_num

theorem Lib.Accurate.near {L : Lib} (h : L.Accurate) : L.Near where
  sum_some_order := h.sum_some_order
  log_near x h0 h1 := by
    obtain ⟨y, hy, hf, he⟩ := h.log_near x h0 h1
    refine ⟨y, hy, hf, he.trans ?_⟩
    have := u_tiny
    norm_num at this
    linarith
  exp_near y hy := by
    obtain ⟨z, hz, he⟩ := h.exp_near y hy
    have hp := Real.exp_pos y
    have := u_le
    have hu := u_pos
    rw [abs_le] at he
    have : 2 * u * Real.exp y ≤ 1 / 2 * Real.exp y := mul_le_mul_of_nonneg_right (by linarith) hp.le
    exact ⟨z, hz, by linarith, by linarith⟩
  sqrt_near x h0 h1 := by
    obtain ⟨z, hz, he⟩ := h.sqrt_near x h0 h1
    have hp := Real.sqrt_nonneg x
    have := u_le
    rw [abs_le] at he
    have : 2 * u * √x ≤ 1 / 2 * √x := mul_le_mul_of_nonneg_right (by linarith) hp
    exact ⟨z, hz, by linarith, by linarith⟩

/-! ### Radii -/

/-- Means as computed of `k` positive numbers. -/
theorem mean_close {L : Lib} (hL : L.Accurate) {k : ℕ} (h1 : 1 ≤ k) (hk : k ≤ 2 ^ 40) (ρ : Fin k → ℝ)
    (hf : ∀ c, double.round (ρ c) = .fin (ρ c)) (hρ : ∀ c, 2 ^ (-200 : ℤ) ≤ ρ c ∧ ρ c ≤ 2 ^ (200 : ℤ)) {r : ℝ}
    (hr : (double.rounding ℝ).div (L.sum (List.ofFn (fun c => .fin (ρ c)))) ((double.rounding ℝ).ofNat k) = .fin r) :
    Close (6 * k * u) ((∑ c, ρ c) / k) r := by
  have hu := u_pos
  have hk0 : (0 : ℝ) < k := Nat.cast_pos.2 h1
  have hpos : ∀ c, 0 < ρ c := fun c => (zpow_pos two_pos _).trans_le (hρ c).1
  have hs := hL.sum_some_order (List.ofFn (fun c => .fin (ρ c))) (fun a ha => by
    obtain ⟨c, rfl⟩ := List.mem_ofFn.1 ha
    exact hf c)
  obtain ⟨v, hv, v0, v1⟩ := Ieee.sum_between double (a := -200) (b := 200) hs
    (by rw [List.length_ofFn]; exact hk.trans (by decide)) (by decide) (by norm_num) (by decide)
    (fun v hv' => by
      obtain ⟨c, rfl⟩ := List.mem_ofFn.1 hv'
      exact ⟨_, rfl, hρ c⟩)
  rw [List.length_ofFn] at v0 v1
  have he : List.ofFn (fun c => (.fin (ρ c) : XR ℝ)) = (List.ofFn ρ).map .fin := by
    rw [List.map_ofFn]; rfl
  have habs : ((List.ofFn ρ).map (|·|)).sum = ∑ c, ρ c := by
    rw [List.map_ofFn, List.sum_ofFn]
    exact Finset.sum_congr rfl (fun c _ => abs_of_pos (hpos c))
  have hpw := pow_sub_one_le h1 hk
  have hS0 : 0 < ∑ c, ρ c := by
    haveI : Nonempty (Fin k) := ⟨⟨0, h1⟩⟩
    exact Finset.sum_pos (fun c _ => hpos c) Finset.univ_nonempty
  have hd := du_le (d := k) (hk.trans (by norm_num))
  have hku : (k : ℝ) * u ≤ 1 / 64 := by nlinarith
  have hS1 : ∑ c, ρ c ≤ 2 ^ (40 : ℤ) * 2 ^ (200 : ℤ) := by
    have h2 := Finset.sum_le_card_nsmul Finset.univ ρ _ (fun c _ => (hρ c).2)
    rw [Finset.card_univ, Fintype.card_fin, nsmul_eq_mul] at h2
    refine h2.trans (mul_le_mul_of_nonneg_right ?_ (zpow_pos two_pos _).le)
    have : (k : ℝ) ≤ ((2 ^ 40 : ℕ) : ℝ) := by exact_mod_cast hk
    refine this.trans (le_of_eq ?_)
    norm_num
  rw [he] at hs hv hr
  obtain ⟨v', hv', -, hve⟩ := Ieee.sum_error double hs (fun x hx => by
      obtain ⟨c, rfl⟩ := List.mem_ofFn.1 hx
      exact hf c) (by
    rw [List.length_ofFn, habs]
    change (1 + u) ^ (k - 1) * _ ≤ _
    have h2 : (1 + u) ^ (k - 1) ≤ 2 := by linarith
    have h3 := mul_le_mul h2 hS1 hS0.le (by norm_num)
    refine h3.trans ?_
    rw [← zpow_add₀ two_ne_zero]
    have e : (2 : ℝ) * 2 ^ ((40 : ℤ) + 200) = 2 ^ (241 : ℤ) := by
      rw [show (241 : ℤ) = (40 + 200) + 1 by norm_num, zpow_add_one₀ two_ne_zero, mul_comm]
    rw [e]
    exact zpow_le_zpow_right₀ one_le_two (by decide))
  rw [hv] at hv'
  obtain rfl := XR.fin.inj hv'
  rw [List.length_ofFn, habs, List.sum_ofFn] at hve
  have hve' : |v - ∑ c, ρ c| ≤ 2 * k * u * ∑ c, ρ c := by
    refine hve.trans (mul_le_mul_of_nonneg_right ?_ hS0.le)
    change (1 + u) ^ (k - 1) - 1 ≤ _
    refine hpw.trans ?_
    nlinarith
  have c1 := close_of_rel hS0 (by nlinarith) hve'
  have c2 := c1.div (Close.refl hk0)
  rw [hv, double_ofNat (hk.trans (by norm_num))] at hr
  unfold div at hr
  rw [div_fin _ hk0.ne'] at hr
  have c3 : Close (2 * u) (v / k) r := close_round (a := -200) (b := 200) (by norm_num) (by norm_num)
    (by rw [le_div_iff₀ hk0]; linarith) (by rw [div_le_iff₀ hk0]; linarith) hr
  refine (c2.trans c3).mono ?_
  have : (1 : ℝ) ≤ k := by exact_mod_cast h1
  nlinarith

/-- Radii as computed: close to the mean distance to any `k` nearest other training points. -/
theorem radii_close {L : Lib} (hL : L.Accurate) {n : ℕ} (hn : n ≤ 2 ^ 40) (x : Fin n → Fin n → ℝ)
    (hf : ∀ i j, i ≠ j → double.round (x i j) = .fin (x i j))
    (hx : ∀ i j, i ≠ j → 2 ^ (-200 : ℤ) ≤ x i j ∧ x i j ≤ 2 ^ (200 : ℤ)) (test : Option (List ℤ)) {k : ℕ} (h1 : 1 ≤ k)
    (hk : ∀ i, k ≤ ((Spec.training n test).erase i).card) (h : k ≤ (LS.trainInd n test).length) (i : Fin n)
    (N : Finset (Fin n)) (hN : Spec.IsNearest ((Spec.training n test).erase i) (x i) k N) {r : ℝ}
    (hr : (double.rounding ℝ).radii L (LS.toXR x) (LS.trainInd n test) k h i = .fin r) :
    Close (6 * n * u) (Spec.meanOver N (x i)) r := by
  have hkn : k ≤ n := by
    have := hk i
    have h2 := Finset.card_le_univ ((Spec.training n test).erase i)
    rw [Fintype.card_fin] at h2
    omega
  have hv : ∀ c : Fin k, ∃ ρ, LS.rankVal (LS.cols (Np.fillDiagonal (LS.toXR x) .pinf) (LS.trainInd n test) i)
      ⟨c.val, lt_of_lt_of_le c.isLt h⟩ = .fin ρ ∧ double.round ρ = .fin ρ ∧ 2 ^ (-200 : ℤ) ≤ ρ ∧ ρ ≤ 2 ^ (200 : ℤ) := by
    intro c
    obtain ⟨ρ, hρ, hs⟩ := LS.rankVal_kthSmallest x test i (c.val + 1) (by omega) (by have := hk i; omega)
      ⟨c.val, lt_of_lt_of_le c.isLt h⟩ (by simp)
    obtain ⟨j, hj, rfl⟩ := hs.attained
    have hne : i ≠ j := (Finset.mem_erase.1 hj).1.symm
    exact ⟨_, hρ, hf i j hne, hx i j hne⟩
  choose ρ hρ hρf hρb using hv
  have hm := LS.meanRank_nearest x test i k h1 (hk i) h N hN
  have hk0 : (k : ℝ) ≠ 0 := by exact_mod_cast (by omega : k ≠ 0)
  unfold LS.meanRank at hm
  rw [funext hρ] at hm
  unfold XR.mean at hm
  rw [LS.sum_fin, div_fin _ hk0] at hm
  unfold radii meanRank at hr
  rw [funext hρ] at hr
  have c := mean_close hL h1 (hkn.trans hn) ρ hρf hρb hr
  rw [XR.fin.inj hm] at c
  refine c.mono ?_
  have : (k : ℝ) ≤ n := by exact_mod_cast hkn
  have := u_pos
  nlinarith

/-! ### Geometric mean -/

theorem geomean_close {L : Lib} (hL : L.Accurate) {n : ℕ} (hn0 : 0 < n) (hn : n ≤ 2 ^ 40) (s : Fin n → ℝ) (r : Fin n → ℝ)
    (hr : ∀ i, 2 ^ (-200 : ℤ) ≤ r i ∧ r i ≤ 2 ^ (200 : ℤ)) (hc : ∀ i, Close (6 * n * u) (s i) (r i)) {g : ℝ}
    (hg : (double.rounding ℝ).geomean L (fun i => .fin (r i)) = .fin g) :
    Close (548 * n * u) (Spec.geometricMean s) g := by
  have hu := u_pos
  have ht := u_tiny
  norm_num at ht
  have hn' : (0 : ℝ) < n := Nat.cast_pos.2 hn0
  have hn1 : (1 : ℝ) ≤ n := by exact_mod_cast hn0
  have hd := du_le (d := n) (hn.trans (by norm_num))
  have hnu : (n : ℝ) * u ≤ 1 / 64 := by nlinarith
  choose y hy hyf hye using fun i => hL.log_near (r i) (hr i).1 (hr i).2
  have hyb : ∀ i, |y i| ≤ 141 := by
    intro i
    have h1 := log_two_zpow_abs (hr i).1 (hr i).2
    have h2 := abs_add_le (y i - Real.log (r i)) (Real.log (r i))
    rw [sub_add_cancel] at h2
    linarith [hye i]
  have he : List.ofFn (fun i => L.log (.fin (r i))) = (List.ofFn y).map .fin := by
    rw [List.map_ofFn]
    congr 1
    funext i
    exact hy i
  have hs := hL.sum_some_order ((List.ofFn y).map .fin) (fun a ha => by
    obtain ⟨z, hz, rfl⟩ := List.mem_map.1 ha
    obtain ⟨c, rfl⟩ := List.mem_ofFn.1 hz
    exact hyf c)
  have habs : ((List.ofFn y).map (|·|)).sum = ∑ i, |y i| := by
    rw [List.map_ofFn, List.sum_ofFn]; rfl
  have hA : ∑ i, |y i| ≤ n * 141 := by
    have h2 := Finset.sum_le_card_nsmul Finset.univ (fun i => |y i|) _ (fun c _ => hyb c)
    rwa [Finset.card_univ, Fintype.card_fin, nsmul_eq_mul] at h2
  have hA0 : 0 ≤ ∑ i, |y i| := Finset.sum_nonneg (fun _ _ => abs_nonneg _)
  have hpw := pow_sub_one_le hn0 hn
  have hpw0 : 1 ≤ (1 + u) ^ (n - 1) := one_le_pow₀ (by linarith)
  have hnc : (n : ℝ) ≤ 1099511627776 := by exact_mod_cast hn
  obtain ⟨v, hv, -, hve⟩ := Ieee.sum_error double hs (fun x hx => by
      obtain ⟨c, rfl⟩ := List.mem_ofFn.1 hx
      exact hyf c) (by
    rw [List.length_ofFn, habs]
    change (1 + u) ^ (n - 1) * _ ≤ _
    have h2 : (1 + u) ^ (n - 1) ≤ 2 := by nlinarith
    have h3 := mul_le_mul h2 hA hA0 (by norm_num)
    refine h3.trans ?_
    have h4 : (2 : ℝ) ^ (60 : ℤ) ≤ 2 ^ double.emax := zpow_le_zpow_right₀ one_le_two (by decide)
    refine le_trans ?_ h4
    norm_num
    linarith)
  rw [List.length_ofFn, habs, List.sum_ofFn] at hve
  have hve' : |v - ∑ i, y i| ≤ 282 * (n - 1) * u * n := by
    refine hve.trans ?_
    change ((1 + u) ^ (n - 1) - 1) * _ ≤ _
    have := mul_le_mul hpw hA hA0 (by nlinarith)
    refine this.trans (le_of_eq (by ring))
  have hlog : |∑ i, y i - ∑ i, Real.log (s i)| ≤ n * (256 * u + 6 * n * u) := by
    rw [← Finset.sum_sub_distrib]
    refine (Finset.abs_sum_le_sum_abs _ _).trans ?_
    have h2 := Finset.sum_le_card_nsmul Finset.univ (fun i => |y i - Real.log (s i)|) (256 * u + 6 * n * u) (fun i _ => by
      have := abs_sub_le (y i) (Real.log (r i)) (Real.log (s i))
      linarith [hye i, (hc i).near])
    rwa [Finset.card_univ, Fintype.card_fin, nsmul_eq_mul] at h2
  have hmean : |v / n - (∑ i, Real.log (s i)) / n| ≤ 288 * n * u := by
    rw [← sub_div, abs_div, abs_of_pos hn', div_le_iff₀ hn']
    have := abs_sub_le v (∑ i, y i) (∑ i, Real.log (s i))
    nlinarith
  have hvb : |v / n| ≤ 256 := by
    rw [abs_div, abs_of_pos hn', div_le_iff₀ hn']
    have h2 := abs_add_le (v - ∑ i, y i) (∑ i, y i)
    rw [sub_add_cancel] at h2
    have h3 := Finset.abs_sum_le_sum_abs y Finset.univ
    have h4 : 282 * (n - 1) * u * n ≤ 5 * (n : ℝ) := by
      refine mul_le_mul_of_nonneg_right ?_ hn'.le
      nlinarith
    linarith
  unfold geomean at hg
  rw [he, hv, double_ofNat (hn.trans (by norm_num))] at hg
  unfold div at hg
  rw [div_fin _ hn'.ne'] at hg
  have h256 : double.round ((2 : ℝ) ^ 8) = .fin (2 ^ 8) := by
    have := Ieee.round_zpow (K := ℝ) double (e := 8) (by decide) (by decide)
    exact_mod_cast this
  obtain ⟨q, hq, hqb⟩ := Ieee.round_abs_le double (x := v / n) (by norm_num; exact hvb) h256
  have hqe := round_abs_error (x := v / n) (lt_of_le_of_lt hvb (by norm_num)) hq
  obtain ⟨z, hz, hze⟩ := hL.exp_near q (by norm_num at hqb; exact hqb)
  change L.exp (double.round (v / n)) = .fin g at hg
  rw [hq, hz] at hg
  obtain rfl := XR.fin.inj hg
  have c1 : Close (2 * (2 * u)) (Real.exp q) z := close_of_rel (Real.exp_pos q) (by linarith [u_le]) hze
  have hexp : Spec.geometricMean s = Real.exp ((∑ i, Real.log (s i)) / n) := by
    have hprod : 0 < ∏ i, s i := Finset.prod_pos (fun i _ => (hc i).left)
    unfold Spec.geometricMean
    rw [Real.rpow_def_of_pos hprod, Real.log_prod (fun i _ => (hc i).left.ne')]
    congr 1
    ring
  have c2 : Close (288 * n * u + 256 * u) (Spec.geometricMean s) (Real.exp q) := by
    rw [hexp]
    refine ⟨Real.exp_pos _, Real.exp_pos _, ?_⟩
    rw [Real.log_exp, Real.log_exp]
    have := abs_sub_le q (v / n) ((∑ i, Real.log (s i)) / n)
    linarith
  refine (c2.trans c1).mono ?_
  nlinarith

/-! ### Entries -/

theorem nicdmEntry_close {L : Lib} (hL : L.Accurate) {ε δ g g' d a a' b b' : ℝ} (hg : Close ε g g') (ha : Close δ a a')
    (hb : Close δ b b') (g0 : 2 ^ (-371 : ℤ) ≤ g') (g1 : g' ≤ 2 ^ (371 : ℤ)) (d0 : 2 ^ (-200 : ℤ) ≤ d)
    (d1 : d ≤ 2 ^ (200 : ℤ)) (a0 : 2 ^ (-200 : ℤ) ≤ a') (a1 : a' ≤ 2 ^ (200 : ℤ)) (b0 : 2 ^ (-200 : ℤ) ≤ b')
    (b1 : b' ≤ 2 ^ (200 : ℤ)) :
    ∃ y, (double.rounding ℝ).nicdmEntry L (.fin g') (.fin d) (.fin a') (.fin b') = .fin y ∧
      Close (ε + δ + 9 * u) (Spec.nicdm g d a b) y := by
  have hd : 0 < d := (zpow_pos two_pos _).trans_le d0
  obtain ⟨p, hp, p0, p1⟩ := mul_between' (F := double) (by decide) (by decide) a0 a1 b0 b1
  norm_num only [] at p0 p1
  have p0' : (2 : ℝ) ^ (-400 : ℤ) ≤ p := by convert p0 using 2
  have p1' : p ≤ (2 : ℝ) ^ (400 : ℤ) := by convert p1 using 2
  have pp : 0 < p := (zpow_pos two_pos _).trans_le p0'
  obtain ⟨q, hq, hqe⟩ := hL.sqrt_near p p0' p1'
  obtain ⟨q', hq', q0, q1⟩ := hL.near.sqrt_near p p0' p1'
  rw [hq] at hq'
  obtain rfl := XR.fin.inj hq'
  have hs0 : (2 : ℝ) ^ (-201 : ℤ) ≤ q := by
    refine le_trans ?_ q0
    have : (2 : ℝ) ^ (-200 : ℤ) ≤ Real.sqrt p := Real.le_sqrt_of_sq_le (by
      rw [← zpow_natCast, ← zpow_mul]; exact p0')
    have h3 : (2 : ℝ) ^ (-201 : ℤ) = 2 ^ (-200 : ℤ) / 2 := by
      rw [show (-201 : ℤ) = -200 - 1 by norm_num, zpow_sub_one₀ two_ne_zero]; rfl
    rw [h3]
    exact div_le_div_of_nonneg_right this two_pos.le
  have hs1 : q ≤ (2 : ℝ) ^ (201 : ℤ) := by
    refine le_trans q1 ?_
    have : Real.sqrt p ≤ (2 : ℝ) ^ (200 : ℤ) := Real.sqrt_le_iff.2 ⟨(zpow_pos two_pos _).le, by
      rw [← zpow_natCast, ← zpow_mul]; exact p1'⟩
    have h3 : (2 : ℝ) ^ (201 : ℤ) = 2 ^ (200 : ℤ) * 2 := by
      rw [show (201 : ℤ) = 200 + 1 by norm_num, zpow_add_one₀ two_ne_zero]
    rw [h3, mul_comm]
    exact mul_le_mul_of_nonneg_right this two_pos.le
  obtain ⟨m, hm, m0, m1⟩ := mul_between' (F := double) (by decide) (by decide) g0 g1 d0 d1
  obtain ⟨y, hy, -, -⟩ := div_between (F := double) (by decide) (by decide) m0 m1 hs0 hs1
  have between : ∀ {i j k l : ℤ} {s t : ℝ}, 2 ^ i ≤ s → s ≤ 2 ^ j → 2 ^ k ≤ t → t ≤ 2 ^ l →
      (2 : ℝ) ^ (i + k) ≤ s * t ∧ s * t ≤ (2 : ℝ) ^ (j + l) := by
    intro i j k l s t h0 h1 h2 h3
    have ps : (0 : ℝ) < s := (zpow_pos two_pos _).trans_le h0
    have pt : (0 : ℝ) < t := (zpow_pos two_pos _).trans_le h2
    rw [zpow_add₀ two_ne_zero, zpow_add₀ two_ne_zero]
    exact ⟨mul_le_mul h0 h2 (zpow_pos two_pos _).le ps.le, mul_le_mul h1 h3 pt.le (zpow_pos two_pos _).le⟩
  have cm : Close (2 * u) (g' * d) m := close_round (by decide) (by decide) (between g0 g1 d0 d1).1 (between g0 g1 d0 d1).2 hm
  have cp : Close (2 * u) (a' * b') p := close_round (by decide) (by decide) (between a0 a1 b0 b1).1 (between a0 a1 b0 b1).2 hp
  have cq : Close (2 * (2 * u)) √p q := close_of_rel (Real.sqrt_pos.2 pp) (by linarith [u_le]) hqe
  have cn := ((hg.mul (Close.refl hd)).trans cm).div ((((ha.mul hb).trans cp).sqrt).trans cq)
  have qp : 0 < q := (zpow_pos two_pos _).trans_le hs0
  have cy : Close (2 * u) (m / q) y := by
    have hy' := hy
    unfold div at hy'
    rw [div_fin _ qp.ne'] at hy'
    have mp : 0 < m := (zpow_pos two_pos _).trans_le m0
    refine close_round (a := -371 + -200 - 201) (b := 371 + 200 - -201) (by decide) (by decide) ?_ ?_ hy'
    · rw [zpow_sub₀ two_ne_zero]
      exact div_le_div₀ mp.le m0 qp hs1
    · rw [zpow_sub₀ two_ne_zero]
      exact div_le_div₀ (zpow_pos two_pos _).le m1 (zpow_pos two_pos _) hs0
  refine ⟨y, ?_, (cn.trans cy).mono (by linarith [u_pos])⟩
  unfold nicdmEntry
  rw [hp, hq, hm, hy]

/-! ### C214 -/

/-- **C214**. In float64, for up to `2^40` points whose distances are floats between `2^-200` and `2^200`, NICDM returns for
every pair of different points the value of the formula with a relative error of at most `n · 2^-42`. -/
theorem C214 (L : Lib) (hL : L.Accurate) (w : LS.World) {n : ℕ} (hn0 : 0 < n) (hn : n ≤ 2 ^ 40) (x : Fin n → Fin n → ℝ)
    (hsym : ∀ i j, x i j = x j i) (hf : ∀ i j, i ≠ j → double.round (x i j) = .fin (x i j))
    (hx : ∀ i j, i ≠ j → 2 ^ (-200 : ℤ) ≤ x i j ∧ x i j ≤ 2 ^ (200 : ℤ)) (k : ℕ) (h1 : 1 ≤ k) (test : Option (List ℤ))
    (nJobs : ℤ) (N : Fin n → Finset (Fin n)) (hN : ∀ i, Spec.IsNearest ((Spec.training n test).erase i) (x i) k (N i)) :
    ∃ M : Fin n → Fin n → ℝ,
      (double.rounding ℝ).nicdm L w (.mat false n n (LS.toXR x)) k "distance" test nJobs = .ok ⟨n, LS.toXR M⟩ ∧
      (∀ i, M i i = 0) ∧ ∀ i j, i ≠ j →
        |M i j - Spec.nicdm (Spec.geometricMean (fun i => Spec.meanOver (N i) (x i))) (x i j) (Spec.meanOver (N i) (x i))
          (Spec.meanOver (N j) (x j))| ≤
        n * 2 ^ (-42 : ℤ) * Spec.nicdm (Spec.geometricMean (fun i => Spec.meanOver (N i) (x i))) (x i j)
          (Spec.meanOver (N i) (x i)) (Spec.meanOver (N j) (x j)) := by
  have hk : ∀ i, k ≤ ((Spec.training n test).erase i).card := fun i => by
    rw [← (hN i).card]; exact Finset.card_le_card (hN i).sub
  have hlen : k ≤ (LS.trainInd n test).length := by
    rw [LS.trainInd_length]
    exact (hk ⟨0, hn0⟩).trans (Finset.card_le_card (Finset.erase_subset _ _))
  have hr := radii_between hL.near (hn.trans (by norm_num)) x hf hx test h1 hk hlen
  obtain ⟨g, hg, g0, g1⟩ := geomean_between hL.near hn0 (hn.trans (by norm_num)) _ hr
  choose r hr' r0 r1 using hr
  obtain ⟨s, hs⟩ : ∃ s : Fin n → ℝ, s = fun i => Spec.meanOver (N i) (x i) := ⟨_, rfl⟩
  have hc : ∀ i, Close (6 * n * u) (s i) (r i) := fun i => by
    rw [hs]; exact radii_close hL hn x hf hx test h1 hk hlen i (N i) (hN i) (hr' i)
  have hfun : (double.rounding ℝ).radii L (LS.toXR x) (LS.trainInd n test) k hlen = fun i => .fin (r i) := funext hr'
  rw [hfun] at hg
  have hgc := geomean_close hL hn0 hn s r (fun i => ⟨r0 i, r1 i⟩) hc hg
  have key : ∀ i j, i ≠ j → ∃ y : ℝ, (double.rounding ℝ).nicdmEntry L (.fin g) (.fin (x i j)) (.fin (r i)) (.fin (r j)) =
      .fin y ∧ |y - Spec.nicdm (Spec.geometricMean s) (x i j) (s i) (s j)| ≤
        n * 2 ^ (-42 : ℤ) * Spec.nicdm (Spec.geometricMean s) (x i j) (s i) (s j) := by
    intro i j hij
    obtain ⟨y, hy, hcy⟩ := nicdmEntry_close hL hgc (hc i) (hc j) g0 g1 (hx i j hij).1 (hx i j hij).2 (r0 i) (r1 i) (r0 j) (r1 j)
    refine ⟨y, hy, ?_⟩
    have hu := u_pos
    have hn1 : (1 : ℝ) ≤ n := by exact_mod_cast hn0
    have hnc : (n : ℝ) ≤ 1099511627776 := by exact_mod_cast hn
    have ht := u_tiny
    norm_num at ht
    have hb : 548 * n * u + 6 * n * u + 9 * u ≤ 563 * (n * u) := by nlinarith
    have hnu : n * u ≤ 1099511627776 * (1 / 9007199254740992) := mul_le_mul hnc ht hu.le (by norm_num)
    have h := (hcy.mono hb).rel (by linarith)
    refine h.trans (mul_le_mul_of_nonneg_right ?_ hcy.left.le)
    have e : (2 : ℝ) ^ (-42 : ℤ) = 2048 * u := by rw [u_eq]; norm_num
    rw [e]
    nlinarith
  rw [nicdm_dense, nicdmCore_ok L w _ k test nJobs hlen]
  choose! v hv using key
  subst hs
  refine ⟨fun i j => if i = j then 0 else if i < j then v i j else v j i, ?_, fun i => if_pos rfl, ?_⟩
  · refine congrArg (fun M => Except.ok (⟨n, M⟩ : Σ n : ℕ, Fin n → Fin n → XR ℝ)) ?_
    funext i j
    unfold nicdmResult LS.mirror LS.toXR
    beta_reduce
    unfold LS.toXR at hfun
    rw [hfun, hg]
    rcases lt_trichotomy i j with h | h | h
    · rw [if_neg h.ne, if_pos h, if_neg h.ne, if_pos h, (hv i j h.ne).1]
    · rw [if_pos h, if_pos h]
    · rw [if_neg h.ne', if_neg h.not_gt, if_neg h.ne', if_neg h.not_gt, (hv j i h.ne).1]
  · intro i j hij
    beta_reduce
    rw [if_neg hij]
    split
    · exact (hv i j hij).2
    · have := (hv j i hij.symm).2
      rw [hsym j i] at this
      unfold Spec.nicdm at this ⊢
      rwa [mul_comm (Spec.meanOver (N j) (x j))] at this

/-- **C214** (order). Secondary distances whose exact values differ by more than a factor of `1 + n · 2^-40` are ranked as
the formula ranks them. -/
theorem C214_order (L : Lib) (hL : L.Accurate) (w : LS.World) {n : ℕ} (hn0 : 0 < n) (hn : n ≤ 2 ^ 40) (x : Fin n → Fin n → ℝ)
    (hsym : ∀ i j, x i j = x j i) (hf : ∀ i j, i ≠ j → double.round (x i j) = .fin (x i j))
    (hx : ∀ i j, i ≠ j → 2 ^ (-200 : ℤ) ≤ x i j ∧ x i j ≤ 2 ^ (200 : ℤ)) (k : ℕ) (h1 : 1 ≤ k) (test : Option (List ℤ))
    (nJobs : ℤ) (N : Fin n → Finset (Fin n)) (hN : ∀ i, Spec.IsNearest ((Spec.training n test).erase i) (x i) k (N i))
    (S : Fin n → Fin n → ℝ)
    (hS : S = fun i j => Spec.nicdm (Spec.geometricMean (fun i => Spec.meanOver (N i) (x i))) (x i j)
      (Spec.meanOver (N i) (x i)) (Spec.meanOver (N j) (x j))) :
    ∃ M : Fin n → Fin n → ℝ,
      (double.rounding ℝ).nicdm L w (.mat false n n (LS.toXR x)) k "distance" test nJobs = .ok ⟨n, LS.toXR M⟩ ∧
      ∀ i j a b, i ≠ j → a ≠ b → (1 + n * 2 ^ (-40 : ℤ)) * S i j < S a b → M i j < M a b := by
  obtain ⟨M, hM, -, he⟩ := C214 L hL w hn0 hn x hsym hf hx k h1 test nJobs N hN
  refine ⟨M, hM, ?_⟩
  intro i j a b hij hab h
  have e1 := (abs_le.1 (he i j hij)).2
  have e2 := (abs_le.1 (he a b hab)).1
  rw [show Spec.nicdm _ _ _ _ = S i j from (congrFun (congrFun hS i) j).symm] at e1
  rw [show Spec.nicdm _ _ _ _ = S a b from (congrFun (congrFun hS a) b).symm] at e2
  have hnc : (n : ℝ) ≤ 1099511627776 := by exact_mod_cast hn
  obtain ⟨t, ht⟩ : ∃ t : ℝ, t = n * 2 ^ (-42 : ℤ) := ⟨_, rfl⟩
  have ht4 : (n : ℝ) * 2 ^ (-40 : ℤ) = 4 * t := by rw [ht]; norm_num; ring
  have ht0 : 0 ≤ t := by rw [ht]; positivity
  have ht1 : t ≤ 1 / 4 := by rw [ht]; norm_num; linarith
  have hS0 : 0 ≤ S i j := by
    have := (abs_nonneg _).trans (he i j hij)
    rw [show Spec.nicdm _ _ _ _ = S i j from (congrFun (congrFun hS i) j).symm, ← ht] at this
    have hn' : (0 : ℝ) < n := Nat.cast_pos.2 hn0
    have htp : 0 < t := by rw [ht]; positivity
    exact nonneg_of_mul_nonneg_right this htp
  rw [ht4] at h
  rw [← ht] at e1 e2
  have h5 : (1 - t) * ((1 + 4 * t) * S i j) < (1 - t) * S a b := mul_lt_mul_of_pos_left h (by linarith)
  have h6 : (1 + t) * S i j ≤ (1 - t) * ((1 + 4 * t) * S i j) := by
    rw [← mul_assoc]
    exact mul_le_mul_of_nonneg_right (by nlinarith) hS0
  linarith

/-- **C214** (units). Distances in another unit (any factor `c > 0` such that the converted distances are floats in the range
too) yield secondary distances in that unit, up to a relative error of `n · 2^-40`. -/
theorem C214_unit (L : Lib) (hL : L.Accurate) (w w' : LS.World) {n : ℕ} (hn0 : 0 < n) (hn : n ≤ 2 ^ 40) {c : ℝ} (hc : 0 < c)
    (x : Fin n → Fin n → ℝ) (hsym : ∀ i j, x i j = x j i) (hf : ∀ i j, i ≠ j → double.round (x i j) = .fin (x i j))
    (hx : ∀ i j, i ≠ j → 2 ^ (-200 : ℤ) ≤ x i j ∧ x i j ≤ 2 ^ (200 : ℤ))
    (hf' : ∀ i j, i ≠ j → double.round (c * x i j) = .fin (c * x i j))
    (hx' : ∀ i j, i ≠ j → 2 ^ (-200 : ℤ) ≤ c * x i j ∧ c * x i j ≤ 2 ^ (200 : ℤ)) (k : ℕ) (h1 : 1 ≤ k)
    (test : Option (List ℤ)) (nJobs nJobs' : ℤ) (hk : ∀ i, k ≤ ((Spec.training n test).erase i).card) :
    ∃ M M' : Fin n → Fin n → ℝ,
      (double.rounding ℝ).nicdm L w (.mat false n n (LS.toXR x)) k "distance" test nJobs = .ok ⟨n, LS.toXR M⟩ ∧
      (double.rounding ℝ).nicdm L w' (.mat false n n (LS.toXR (fun i j => c * x i j))) k "distance" test nJobs' =
        .ok ⟨n, LS.toXR M'⟩ ∧
      ∀ i j, |M' i j - c * M i j| ≤ n * 2 ^ (-40 : ℤ) * (c * M i j) := by
  choose N hN using fun i => LS.C32_nearest_exist (x i) ((Spec.training n test).erase i) k (hk i)
  obtain ⟨M, hM, hd, he⟩ := C214 L hL w hn0 hn x hsym hf hx k h1 test nJobs N hN
  have hN' : ∀ i, Spec.IsNearest ((Spec.training n test).erase i) (fun j => c * x i j) k (N i) := fun i =>
    ⟨(hN i).sub, (hN i).card, fun a ha b hb hnb => mul_le_mul_of_nonneg_left ((hN i).best a ha b hb hnb) hc.le⟩
  obtain ⟨M', hM', hd', he'⟩ := C214 L hL w' hn0 hn (fun i j => c * x i j) (fun i j => by rw [hsym i j]) hf' hx' k h1 test
    nJobs' N hN'
  refine ⟨M, M', hM, hM', ?_⟩
  have hn' : (0 : ℝ) < n := Nat.cast_pos.2 hn0
  have hnc : (n : ℝ) ≤ 1099511627776 := by exact_mod_cast hn
  obtain ⟨s, hs⟩ : ∃ s : Fin n → ℝ, s = fun i => Spec.meanOver (N i) (x i) := ⟨_, rfl⟩
  have hsi : ∀ i, Spec.meanOver (N i) (x i) = s i := fun i => by rw [hs]
  have hs' : ∀ i, Spec.meanOver (N i) (fun j => c * x i j) = c * s i := fun i => by
    rw [hs]
    unfold Spec.meanOver
    rw [← Finset.mul_sum, mul_div_assoc]
  have hsp : ∀ i, 0 < s i := fun i => by
    rw [hs]
    refine div_pos (Finset.sum_pos (fun j hj => ?_) (Finset.card_pos.1 (by rw [(hN i).card]; omega)))
      (Nat.cast_pos.2 (by rw [(hN i).card]; omega))
    exact (zpow_pos two_pos _).trans_le (hx i j (Finset.mem_erase.1 ((hN i).sub hj)).1.symm).1
  have hgm : Spec.geometricMean (fun i => c * s i) = c * Spec.geometricMean s := by
    unfold Spec.geometricMean
    rw [Finset.prod_mul_distrib, Finset.prod_const, Finset.card_univ, Fintype.card_fin,
      Real.mul_rpow (by positivity) (Finset.prod_nonneg fun i _ => (hsp i).le), ← Real.rpow_natCast, ← Real.rpow_mul hc.le,
      mul_one_div_cancel hn'.ne', Real.rpow_one]
  have hnic : ∀ i j, Spec.nicdm (c * Spec.geometricMean s) (c * x i j) (c * s i) (c * s j) =
      c * Spec.nicdm (Spec.geometricMean s) (x i j) (s i) (s j) := fun i j => by
    unfold Spec.nicdm
    rw [show c * s i * (c * s j) = c ^ 2 * (s i * s j) by ring, Real.sqrt_mul (sq_nonneg c), Real.sqrt_sq hc.le]
    have : √(s i * s j) ≠ 0 := (Real.sqrt_pos.2 (mul_pos (hsp i) (hsp j))).ne'
    field_simp
  simp only [hsi] at he
  simp only [hs', hgm, hnic] at he'
  obtain ⟨t, ht⟩ : ∃ t : ℝ, t = n * 2 ^ (-42 : ℤ) := ⟨_, rfl⟩
  have ht4 : (n : ℝ) * 2 ^ (-40 : ℤ) = 4 * t := by rw [ht]; norm_num; ring
  have htp : 0 < t := by rw [ht]; positivity
  have ht1 : t ≤ 1 / 4 := by rw [ht]; norm_num; linarith
  rw [← ht] at he he'
  rw [ht4]
  intro i j
  rcases eq_or_ne i j with rfl | hij
  · rw [hd, hd']; simp
  have h3 := he i j hij
  have h4 := he' i j hij
  obtain ⟨E, hE⟩ : ∃ E, E = Spec.nicdm (Spec.geometricMean s) (x i j) (s i) (s j) := ⟨_, rfl⟩
  change |M i j - Spec.nicdm (Spec.geometricMean fun i => s i) (x i j) (s i) (s j)| ≤ _ at h3
  rw [← hE] at h3 h4
  have hE0 : 0 ≤ E := nonneg_of_mul_nonneg_right ((abs_nonneg _).trans h3) htp
  have h5 : |c * E - c * M i j| ≤ c * (t * E) := by
    rw [← mul_sub, abs_mul, abs_of_pos hc, abs_sub_comm]
    exact mul_le_mul_of_nonneg_left h3 hc.le
  have h6 := abs_sub_le (M' i j) (c * E) (c * M i j)
  have h7 : (1 - t) * E ≤ M i j := by linarith [(abs_le.1 h3).1]
  have h8 : c * ((1 - t) * E) ≤ c * M i j := mul_le_mul_of_nonneg_left h7 hc.le
  have hcE : 0 ≤ c * E := mul_nonneg hc.le hE0
  have h9 : 2 * t * (c * E) ≤ 4 * t * (c * M i j) := by
    have : 2 * (c * E) ≤ 4 * (c * M i j) := by nlinarith
    nlinarith
  linarith

/-! ### The hypotheses can be met -/

theorem Lib.rounded_accurate : Lib.rounded.Accurate where
  sum_some_order l hl := sums_foldl _ l hl
  log_near x h0 h1 := by
    have hx : 0 < x := (zpow_pos two_pos _).trans_le h0
    obtain ⟨y, hy, hf, -⟩ := Lib.rounded_near.log_near x h0 h1
    refine ⟨y, hy, hf, ?_⟩
    have h2 : XR.log (.fin x) = .fin (Real.log x) := by simp [XR.log, hx.ne', hx.not_gt]
    change (double.rounding ℝ).up (XR.log (.fin x)) = _ at hy
    rw [h2] at hy
    exact round_abs_error (lt_of_le_of_lt (log_two_zpow_abs h0 h1) (by norm_num)) hy
  exp_near y h := by
    rw [abs_le] at h
    have h1 : Real.exp y ≤ 2 ^ (370 : ℤ) := (Real.exp_le_exp.2 h.2).trans exp_le_two_zpow
    have h0 : (2 : ℝ) ^ (-370 : ℤ) ≤ Real.exp y := by
      refine le_trans ?_ (Real.exp_le_exp.2 h.1)
      rw [Real.exp_neg, zpow_neg]
      exact inv_anti₀ (Real.exp_pos _) exp_le_two_zpow
    obtain ⟨z, hz, -, he⟩ := within_round (a := -370) (b := 370) (by norm_num) (by norm_num) (x := Real.exp y)
      (Or.inr (by rw [abs_of_pos (Real.exp_pos y)]; exact ⟨h0, h1⟩))
    rw [abs_of_pos (Real.exp_pos y)] at he
    refine ⟨z, hz, he.trans (mul_le_mul_of_nonneg_right (by linarith [u_pos]) (Real.exp_pos y).le)⟩
  sqrt_near x h0 h1 := by
    have hx : 0 < x := (zpow_pos two_pos _).trans_le h0
    obtain ⟨z, hz, -, he⟩ := within_round (a := -200) (b := 200) (by norm_num) (by norm_num) (x := √x)
      (Or.inr (by
        rw [abs_of_nonneg (Real.sqrt_nonneg x)]
        exact ⟨Real.le_sqrt_of_sq_le (by rw [← zpow_natCast, ← zpow_mul]; exact h0),
          Real.sqrt_le_iff.2 ⟨(zpow_pos two_pos _).le, by rw [← zpow_natCast, ← zpow_mul]; exact h1⟩⟩))
    rw [abs_of_nonneg (Real.sqrt_nonneg x)] at he
    refine ⟨z, ?_, he.trans (mul_le_mul_of_nonneg_right (by linarith [u_pos]) (Real.sqrt_nonneg x))⟩
    show (double.rounding ℝ).up (XR.sqrt (.fin x)) = _
    have : XR.sqrt (.fin x) = .fin √x := by simp [XR.sqrt, hx.not_gt]
    rw [this]
    exact hz

theorem line3_float (i j : Fin 3) (c : ℤ) (hc : |c| ≤ 2) : double.round ((c : ℝ) * LS.line3 i j) = .fin (c * LS.line3 i j) := by
  have h : ∃ z : ℤ, 0 ≤ z ∧ z ≤ 3 ∧ LS.line3 i j = z := by
    fin_cases i <;> fin_cases j
    · exact ⟨0, by norm_num, by norm_num, by norm_num [LS.line3]⟩
    · exact ⟨1, by norm_num, by norm_num, by norm_num [LS.line3]⟩
    · exact ⟨3, by norm_num, by norm_num, by norm_num [LS.line3]⟩
    · exact ⟨1, by norm_num, by norm_num, by norm_num [LS.line3]⟩
    · exact ⟨0, by norm_num, by norm_num, by norm_num [LS.line3]⟩
    · exact ⟨2, by norm_num, by norm_num, by norm_num [LS.line3]⟩
    · exact ⟨3, by norm_num, by norm_num, by norm_num [LS.line3]⟩
    · exact ⟨2, by norm_num, by norm_num, by norm_num [LS.line3]⟩
    · exact ⟨0, by norm_num, by norm_num, by norm_num [LS.line3]⟩
  obtain ⟨z, z0, z1, hz⟩ := h
  rw [hz]
  have := Ieee.round_grid (K := ℝ) double (z := c * z) (t := 0) (by
    rw [abs_mul, abs_of_nonneg z0]
    have : |c| * z ≤ 2 * 3 := mul_le_mul hc z1 z0 (by norm_num)
    exact this.trans (by decide)) (by decide) (by decide)
  simpa using this

theorem line3_between (i j : Fin 3) (hij : i ≠ j) {c : ℝ} (h0 : 1 ≤ c) (h1 : c ≤ 2) :
    2 ^ (-200 : ℤ) ≤ c * LS.line3 i j ∧ c * LS.line3 i j ≤ 2 ^ (200 : ℤ) := by
  have p0 : (2 : ℝ) ^ (-200 : ℤ) ≤ 1 := zpow_le_one_of_nonpos₀ one_le_two (by norm_num)
  have p1 : (8 : ℝ) ≤ 2 ^ (200 : ℤ) := by
    have : (2 : ℝ) ^ (3 : ℤ) ≤ 2 ^ (200 : ℤ) := zpow_le_zpow_right₀ one_le_two (by norm_num)
    refine le_trans ?_ this
    norm_num
  have h : 1 ≤ LS.line3 i j ∧ LS.line3 i j ≤ 3 := by
    fin_cases i <;> fin_cases j <;> first | exact absurd rfl hij | norm_num [LS.line3]
  exact ⟨p0.trans (by nlinarith), le_trans (by nlinarith) p1⟩

/-- The hypotheses of `C214` hold for correctly rounded functions and the points 0, 1 and 3 on a line. -/
example (nJobs : ℤ) := C214 Lib.rounded Lib.rounded_accurate LS.stdWorld (n := 3) (by norm_num) (by norm_num)
  LS.line3 LS.line3_symm (fun i j _ => by simpa using line3_float i j 1 (by norm_num))
  (fun i j hij => by simpa using line3_between i j hij le_rfl one_le_two) 1 le_rfl none nJobs _ LS.line3_nearest

example (nJobs : ℤ) := C214_order Lib.rounded Lib.rounded_accurate LS.stdWorld (n := 3) (by norm_num) (by norm_num)
  LS.line3 LS.line3_symm (fun i j _ => by simpa using line3_float i j 1 (by norm_num))
  (fun i j hij => by simpa using line3_between i j hij le_rfl one_le_two) 1 le_rfl none nJobs _ LS.line3_nearest _ rfl

/-- The hypotheses of `C214_unit` hold for these points and the factor 2. -/
example (nJobs : ℤ) := C214_unit Lib.rounded Lib.rounded_accurate LS.stdWorld LS.stdWorld (n := 3) (by norm_num) (by norm_num)
  (c := 2) two_pos LS.line3 LS.line3_symm
  (fun i j _ => by simpa using line3_float i j 1 (by norm_num))
  (fun i j hij => by simpa using line3_between i j hij le_rfl one_le_two)
  (fun i j _ => by simpa using line3_float i j 2 (by norm_num))
  (fun i j hij => line3_between i j hij one_le_two le_rfl) 1 le_rfl none nJobs 1 (by decide)

end HubToolbox.Rounding
