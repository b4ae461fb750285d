import Verif.Rounding.LocalProps
import Verif.Rounding.SumError
import Verif.LS.Bridge
import Mathlib.Analysis.Complex.ExponentialBounds

/-!
# NICDM yields numbers if distances are neither tiny nor huge (C185)
-/

set_option autoImplicit false

namespace HubToolbox

namespace Ieee

section
variable {K : Type} [Field K] [LinearOrder K] [FloorRing K] [IsStrictOrderedRing K] (F : Ieee)

/-- Numbers between floats are rounded to numbers between them. -/
theorem round_sandwich {x a b : K} (ha : F.round a = .fin a) (hb : F.round b = .fin b) (h0 : a ≤ x) (h1 : x ≤ b) :
    ∃ y, F.round x = .fin y ∧ a ≤ y ∧ y ≤ b := by
  have l := (F.rounding K).mono _ _ h0
  have u := (F.rounding K).mono _ _ h1
  change F.round _ ≤ F.round _ at l
  change F.round _ ≤ F.round _ at u
  rw [ha] at l
  rw [hb] at u
  cases h : F.round x with
  | fin y => rw [h] at l u; exact ⟨y, rfl, l, u⟩
  | ninf => rw [h] at l; simp at l
  | pinf => rw [h] at u; simp at u
  | nan => exact absurd h ((F.rounding K).ne_nan x)

/-- Sums in any order of numbers between powers of two. -/
theorem sum_between {a b : ℤ} {l : List (XR K)} {s : XR K} (h : (F.rounding K).Sums l s) (hl : l.length ≤ 2 ^ F.p)
    (ha : F.emin ≤ a) (hab : a ≤ b) (hb : (F.p : ℤ) + b ≤ F.emax) (hx : ∀ v ∈ l, ∃ x, v = .fin x ∧ 2 ^ a ≤ x ∧ x ≤ (2 : K) ^ b) :
    ∃ y, s = .fin y ∧ (l.length : K) * 2 ^ a ≤ y ∧ y ≤ (l.length : K) * 2 ^ b := by
  have hp := F.p_pos
  rcases h with ⟨rfl, rfl⟩ | ⟨t, ht, rfl⟩
  · exact ⟨0, rfl, by simp, by simp⟩
  · rw [← ht.length_eq] at hl ⊢
    replace hx : ∀ v ∈ t.leaves, ∃ x, v = .fin x ∧ 2 ^ a ≤ x ∧ x ≤ (2 : K) ^ b := fun v hv => hx v (ht.mem_iff.1 hv)
    clear ht
    induction t with
    | leaf v =>
      obtain ⟨x, rfl, h0, h1⟩ := hx v (by simp [SumTree.leaves])
      exact ⟨x, rfl, by simpa [SumTree.leaves] using h0, by simpa [SumTree.leaves] using h1⟩
    | node t₁ t₂ h1 h2 =>
      simp only [SumTree.leaves, List.length_append] at hl ⊢
      obtain ⟨x, hx', x0, x1⟩ := h1 (by omega) (fun a ha => hx a (by simp [SumTree.leaves, ha]))
      obtain ⟨y, hy', y0, y1⟩ := h2 (by omega) (fun a ha => hx a (by simp [SumTree.leaves, ha]))
      simp only [SumTree.eval, hx', hy']
      refine round_sandwich F (x := x + y) (round_mul_zpow F hl (by omega) (by omega))
        (round_mul_zpow F hl (by omega) (by omega)) ?_ ?_
      · push_cast; linarith
      · push_cast; linarith

end

end Ieee

namespace Rounding

/-- What is assumed of the functions of numpy in float64 for this theorem: sums add in some order, logarithms are wrong by at
most one, roots and exponentials by a factor of at most two, for arguments which are neither tiny nor huge. -/
structure Lib.Near (L : Lib) : Prop where
  sum_some_order : ∀ l, (∀ a ∈ l, (Ieee.double.rounding ℝ).Float a) → (Ieee.double.rounding ℝ).Sums l (L.sum l)
  log_near : ∀ x : ℝ, 2 ^ (-200 : ℤ) ≤ x → x ≤ 2 ^ (200 : ℤ) →
    ∃ y, L.log (.fin x) = .fin y ∧ Ieee.double.round y = .fin y ∧ |y - Real.log x| ≤ 1
  exp_near : ∀ y : ℝ, |y| ≤ 256 → ∃ z, L.exp (.fin y) = .fin z ∧ Real.exp y / 2 ≤ z ∧ z ≤ 2 * Real.exp y
  sqrt_near : ∀ x : ℝ, 2 ^ (-400 : ℤ) ≤ x → x ≤ 2 ^ (400 : ℤ) →
    ∃ z, L.sqrt (.fin x) = .fin z ∧ Real.sqrt x / 2 ≤ z ∧ z ≤ 2 * Real.sqrt x

/-- Quotients of numbers between powers of two. -/
theorem div_between {F : Ieee} {a b c d : ℤ} (h0 : F.emin ≤ a - d) (h1 : b - c ≤ F.emax) {x y : ℝ} (hx : 2 ^ a ≤ x)
    (hx' : x ≤ 2 ^ b) (hy : 2 ^ c ≤ y) (hy' : y ≤ 2 ^ d) :
    ∃ z : ℝ, (F.rounding ℝ).div (.fin x) (.fin y) = .fin z ∧ 2 ^ (a - d) ≤ z ∧ z ≤ 2 ^ (b - c) := by
  have py : (0 : ℝ) < y := (zpow_pos two_pos _).trans_le hy
  have px : (0 : ℝ) < x := (zpow_pos two_pos _).trans_le hx
  have l : (2 : ℝ) ^ (a - d) ≤ x / y := by
    rw [zpow_sub₀ two_ne_zero]
    exact div_le_div₀ px.le hx py hy'
  have u : x / y ≤ (2 : ℝ) ^ (b - c) := by
    rw [zpow_sub₀ two_ne_zero]
    exact div_le_div₀ (zpow_pos two_pos _).le hx' (zpow_pos two_pos _) hy
  obtain ⟨z, hz, h⟩ := Ieee.round_between F h0 h1 l u
  refine ⟨z, ?_, h⟩
  rw [← hz]
  simp [div, XR.div, py.ne', up]
  rfl

/-- Products of numbers between powers of two. -/
theorem mul_between' {F : Ieee} {a b c d : ℤ} (h0 : F.emin ≤ a + c) (h1 : b + d ≤ F.emax) {x y : ℝ} (hx : 2 ^ a ≤ x)
    (hx' : x ≤ 2 ^ b) (hy : 2 ^ c ≤ y) (hy' : y ≤ 2 ^ d) :
    ∃ z : ℝ, (F.rounding ℝ).mul (.fin x) (.fin y) = .fin z ∧ 2 ^ (a + c) ≤ z ∧ z ≤ 2 ^ (b + d) := by
  have py : (0 : ℝ) < y := (zpow_pos two_pos _).trans_le hy
  have px : (0 : ℝ) < x := (zpow_pos two_pos _).trans_le hx
  have l : (2 : ℝ) ^ (a + c) ≤ x * y := by
    rw [zpow_add₀ two_ne_zero]
    exact mul_le_mul hx hy (zpow_pos two_pos _).le px.le
  have u : x * y ≤ (2 : ℝ) ^ (b + d) := by
    rw [zpow_add₀ two_ne_zero]
    exact mul_le_mul hx' hy' py.le (zpow_pos two_pos _).le
  exact Ieee.round_between F h0 h1 l u

theorem double_ofNat {n : ℕ} (h : n ≤ 2 ^ 53) : (Ieee.double.rounding ℝ).ofNat n = .fin (n : ℝ) := by
  have := Ieee.round_mul_zpow (K := ℝ) Ieee.double (m := n) (t := 0) h (by norm_num [Ieee.double]) (by norm_num [Ieee.double])
  simp only [zpow_zero, mul_one] at this
  exact this

/-- Radii are between the same bounds as distances. -/
theorem radii_between {L : Lib} (hL : L.Near) {n : ℕ} (hn : n ≤ 2 ^ 53) (x : Fin n → Fin n → ℝ)
    (hf : ∀ i j, i ≠ j → Ieee.double.round (x i j) = .fin (x i j))
    (hx : ∀ i j, i ≠ j → 2 ^ (-200 : ℤ) ≤ x i j ∧ x i j ≤ 2 ^ (200 : ℤ)) (test : Option (List ℤ)) {k : ℕ} (h1 : 1 ≤ k)
    (hk : ∀ i, k ≤ ((Spec.training n test).erase i).card) (h : k ≤ (LS.trainInd n test).length) (i : Fin n) :
    ∃ r, (Ieee.double.rounding ℝ).radii L (LS.toXR x) (LS.trainInd n test) k h i = .fin r ∧ 2 ^ (-200 : ℤ) ≤ r ∧
      r ≤ 2 ^ (200 : ℤ) := by
  have hkn : k ≤ 2 ^ 53 := by
    have := hk i
    have h2 := Finset.card_le_univ ((Spec.training n test).erase i)
    rw [Fintype.card_fin] at h2
    omega
  have hv : ∀ v ∈ List.ofFn (fun c : Fin k => LS.rankVal (LS.cols (Np.fillDiagonal (LS.toXR x) .pinf) (LS.trainInd n test) i)
      ⟨c.val, lt_of_lt_of_le c.isLt h⟩), ∃ y, v = .fin y ∧ Ieee.double.round y = .fin y ∧ 2 ^ (-200 : ℤ) ≤ y ∧
        y ≤ 2 ^ (200 : ℤ) := by
    intro v hv
    obtain ⟨c, rfl⟩ := List.mem_ofFn.1 hv
    obtain ⟨ρ, hρ, hs⟩ := LS.rankVal_kthSmallest x test i (c.val + 1) (by omega) (by have := hk i; omega)
      ⟨c.val, lt_of_lt_of_le c.isLt h⟩ (by simp)
    obtain ⟨j, hj, rfl⟩ := hs.attained
    have hne : i ≠ j := (Finset.mem_erase.1 hj).1.symm
    exact ⟨_, hρ, hf i j hne, hx i j hne⟩
  have hs := hL.sum_some_order _ (fun a ha => by
    obtain ⟨y, rfl, hy, _⟩ := hv a ha
    exact hy)
  obtain ⟨s, hs, s0, s1⟩ := Ieee.sum_between Ieee.double (a := -200) (b := 200) hs
    (by rw [List.length_ofFn]; exact hkn) (by norm_num [Ieee.double]) (by norm_num) (by norm_num [Ieee.double])
    (fun v hv' => by
      obtain ⟨y, rfl, _, h0, h1⟩ := hv v hv'
      exact ⟨y, rfl, h0, h1⟩)
  rw [List.length_ofFn] at s0 s1
  unfold radii meanRank
  rw [hs, double_ofNat hkn]
  have hk0 : (0 : ℝ) < k := Nat.cast_pos.2 h1
  obtain ⟨r, hr, h'⟩ := Ieee.round_between Ieee.double (K := ℝ) (a := -200) (b := 200) (by norm_num [Ieee.double])
    (by norm_num [Ieee.double]) (x := s / k) (by rw [le_div_iff₀ hk0]; linarith) (by rw [div_le_iff₀ hk0]; linarith)
  refine ⟨r, ?_, h'⟩
  rw [← hr]
  simp [div, XR.div, hk0.ne', up]
  rfl

theorem log_two_zpow_abs {x : ℝ} (h0 : 2 ^ (-200 : ℤ) ≤ x) (h1 : x ≤ 2 ^ (200 : ℤ)) : |Real.log x| ≤ 140 := by
  have hx : (0 : ℝ) < x := (zpow_pos two_pos _).trans_le h0
  have l := Real.log_le_log (zpow_pos two_pos _) h0
  have u := Real.log_le_log hx h1
  rw [Real.log_zpow] at l u
  have := Real.log_two_lt_d9
  rw [abs_le]
  push_cast at l u
  constructor <;> linarith

theorem exp_le_two_zpow : Real.exp 256 ≤ 2 ^ (370 : ℤ) := by
  have h : (256 : ℝ) ≤ Real.log (2 ^ (370 : ℤ)) := by
    rw [Real.log_zpow]
    have := Real.log_two_gt_d9
    push_cast
    linarith
  calc Real.exp 256 ≤ Real.exp (Real.log (2 ^ (370 : ℤ))) := Real.exp_le_exp.2 h
    _ = _ := Real.exp_log (zpow_pos two_pos _)

/-- The geometric mean of the radii. -/
theorem geomean_between {L : Lib} (hL : L.Near) {n : ℕ} (hn0 : 0 < n) (hn : n ≤ 2 ^ 53) (r : Fin n → XR ℝ)
    (hr : ∀ i, ∃ y, r i = .fin y ∧ 2 ^ (-200 : ℤ) ≤ y ∧ y ≤ 2 ^ (200 : ℤ)) :
    ∃ g, (Ieee.double.rounding ℝ).geomean L r = .fin g ∧ 2 ^ (-371 : ℤ) ≤ g ∧ g ≤ 2 ^ (371 : ℤ) := by
  have hv : ∀ v ∈ List.ofFn (fun i => L.log (r i)), ∃ y, v = .fin y ∧ Ieee.double.round y = .fin y ∧ |y| ≤ 2 ^ 8 := by
    intro v hv
    obtain ⟨i, rfl⟩ := List.mem_ofFn.1 hv
    obtain ⟨y, hy, h0, h1⟩ := hr i
    obtain ⟨z, hz, hzf, hz'⟩ := hL.log_near y h0 h1
    refine ⟨z, by rw [hy, hz], hzf, ?_⟩
    have := log_two_zpow_abs h0 h1
    rw [abs_le] at this hz' ⊢
    constructor <;> norm_num <;> linarith [this.1, this.2, hz'.1, hz'.2]
  have hs := hL.sum_some_order _ (fun a ha => by
    obtain ⟨y, rfl, hy, _⟩ := hv a ha
    exact hy)
  obtain ⟨s, hs, s1⟩ := Ieee.sum_abs_le Ieee.double (e := 8) hs (by rw [List.length_ofFn]; exact hn)
    (by norm_num [Ieee.double]) (fun v hv' => by
      obtain ⟨y, rfl, _, h⟩ := hv v hv'
      exact ⟨y, rfl, h⟩)
  rw [List.length_ofFn] at s1
  have hn' : (0 : ℝ) < n := Nat.cast_pos.2 hn0
  have hq : |s / n| ≤ 2 ^ 8 := by
    rw [abs_div, abs_of_pos hn', div_le_iff₀ hn']
    linarith
  have h256 : Ieee.double.round ((2 : ℝ) ^ 8) = .fin (2 ^ 8) := by
    have := Ieee.round_zpow (K := ℝ) Ieee.double (e := 8) (by norm_num [Ieee.double]) (by norm_num [Ieee.double])
    exact_mod_cast this
  obtain ⟨q, hq', q1⟩ := Ieee.round_abs_le Ieee.double hq h256
  have hdiv : (Ieee.double.rounding ℝ).div (.fin s) (.fin (n : ℝ)) = .fin q := by
    rw [← hq']
    simp [div, XR.div, hn'.ne', up]
    rfl
  obtain ⟨g, hg, g0, g1⟩ := hL.exp_near q (by norm_num at q1 ⊢; exact q1)
  refine ⟨g, ?_, ?_, ?_⟩
  · unfold geomean
    rw [hs, double_ofNat hn, hdiv, hg]
  · have h1 : Real.exp (-256) ≤ Real.exp q := Real.exp_le_exp.2 (by norm_num at q1; exact (abs_le.1 q1).1)
    have h2 : (2 : ℝ) ^ (-370 : ℤ) ≤ Real.exp (-256) := by
      rw [Real.exp_neg, zpow_neg]
      exact inv_anti₀ (Real.exp_pos _) exp_le_two_zpow
    have h3 : (2 : ℝ) ^ (-371 : ℤ) = 2 ^ (-370 : ℤ) / 2 := by
      rw [show (-371 : ℤ) = -370 - 1 by norm_num, zpow_sub_one₀ two_ne_zero]; rfl
    rw [h3]
    linarith
  · have h1 : Real.exp q ≤ Real.exp 256 := Real.exp_le_exp.2 (by norm_num at q1; exact (abs_le.1 q1).2)
    have h3 : (2 : ℝ) ^ (371 : ℤ) = 2 ^ (370 : ℤ) * 2 := by
      rw [show (371 : ℤ) = 370 + 1 by norm_num, zpow_add_one₀ two_ne_zero]
    rw [h3]
    linarith [exp_le_two_zpow]

/-- **C185** (numbers). In float64, if all distances between different points lie between `2^-200` and `2^200` and every point has
at least `k` other training points, NICDM returns positive numbers for all pairs of different points. -/
theorem C185_regular_partial (L : Lib) (hL : L.Near) (w : LS.World) {n : ℕ} (hn0 : 0 < n) (hn : n ≤ 2 ^ 53) (x : Fin n → Fin n → ℝ)
    (hf : ∀ i j, i ≠ j → Ieee.double.round (x i j) = .fin (x i j))
    (hx : ∀ i j, i ≠ j → 2 ^ (-200 : ℤ) ≤ x i j ∧ x i j ≤ 2 ^ (200 : ℤ)) (test : Option (List ℤ)) {k : ℕ} (h1 : 1 ≤ k)
    (hk : ∀ i, k ≤ ((Spec.training n test).erase i).card) (nJobs : ℤ) :
    ∃ M : Fin n → Fin n → ℝ,
      (Ieee.double.rounding ℝ).nicdm L w (.mat false n n (LS.toXR x)) k "distance" test nJobs =
        .ok ⟨n, fun i j => .fin (M i j)⟩ ∧
      (∀ i, M i i = 0) ∧ (∀ i j, M i j = M j i) ∧ ∀ i j, i ≠ j → 0 < M i j := by
  have hlen : k ≤ (LS.trainInd n test).length := by
    rw [LS.trainInd_length]
    exact (hk ⟨0, hn0⟩).trans (Finset.card_le_card (Finset.erase_subset _ _))
  have hr := radii_between hL hn x hf hx test h1 hk hlen
  obtain ⟨g, hg, g0, g1⟩ := geomean_between hL hn0 hn _ hr
  have key : ∀ i j, i ≠ j → ∃ y : ℝ, (Ieee.double.rounding ℝ).nicdmEntry L
      ((Ieee.double.rounding ℝ).geomean L ((Ieee.double.rounding ℝ).radii L (LS.toXR x) (LS.trainInd n test) k hlen))
      (LS.toXR x i j) ((Ieee.double.rounding ℝ).radii L (LS.toXR x) (LS.trainInd n test) k hlen i)
      ((Ieee.double.rounding ℝ).radii L (LS.toXR x) (LS.trainInd n test) k hlen j) = .fin y ∧ 0 < y := by
    intro i j hij
    obtain ⟨a, ha, a0, a1⟩ := hr i
    obtain ⟨b, hb, b0, b1⟩ := hr j
    obtain ⟨p, hp, p0, p1⟩ := mul_between' (F := Ieee.double) (by norm_num [Ieee.double]) (by norm_num [Ieee.double])
      a0 a1 b0 b1
    norm_num only [] at p0 p1
    obtain ⟨q, hq, q0, q1⟩ := hL.sqrt_near p (by convert p0 using 2) (by convert p1 using 2)
    have hs0 : (2 : ℝ) ^ (-201 : ℤ) ≤ q := by
      refine le_trans ?_ q0
      have : (2 : ℝ) ^ (-200 : ℤ) ≤ Real.sqrt p := Real.le_sqrt_of_sq_le (by
        rw [← zpow_natCast, ← zpow_mul]; convert p0 using 2; norm_num)
      have h3 : (2 : ℝ) ^ (-201 : ℤ) = 2 ^ (-200 : ℤ) / 2 := by
        rw [show (-201 : ℤ) = -200 - 1 by norm_num, zpow_sub_one₀ two_ne_zero]; rfl
      rw [h3]
      exact div_le_div_of_nonneg_right this two_pos.le
    have hs1 : q ≤ (2 : ℝ) ^ (201 : ℤ) := by
      refine le_trans q1 ?_
      have : Real.sqrt p ≤ (2 : ℝ) ^ (200 : ℤ) := Real.sqrt_le_iff.2 ⟨(zpow_pos two_pos _).le, by
        rw [← zpow_natCast, ← zpow_mul]; convert p1 using 2; norm_num⟩
      have h3 : (2 : ℝ) ^ (201 : ℤ) = 2 ^ (200 : ℤ) * 2 := by
        rw [show (201 : ℤ) = 200 + 1 by norm_num, zpow_add_one₀ two_ne_zero]
      rw [h3, mul_comm]
      exact mul_le_mul_of_nonneg_right this two_pos.le
    obtain ⟨m, hm, m0, m1⟩ := mul_between' (F := Ieee.double) (by norm_num [Ieee.double]) (by norm_num [Ieee.double])
      g0 g1 (hx i j hij).1 (hx i j hij).2
    obtain ⟨y, hy, y0, _⟩ := div_between (F := Ieee.double) (by norm_num [Ieee.double]) (by norm_num [Ieee.double])
      m0 m1 hs0 hs1
    refine ⟨y, ?_, (zpow_pos two_pos _).trans_le y0⟩
    unfold nicdmEntry
    rw [hg, ha, hb, hp, hq]
    rw [show LS.toXR x i j = .fin (x i j) from rfl, hm, hy]
  rw [nicdm_dense, nicdmCore_ok L w _ k test nJobs hlen]
  choose! v hv using key
  refine ⟨fun i j => if i = j then 0 else if i < j then v i j else v j i, ?_, ?_, ?_, ?_⟩
  · refine congrArg (fun M => Except.ok (⟨n, M⟩ : Σ n : ℕ, Fin n → Fin n → XR ℝ)) ?_
    funext i j
    unfold nicdmResult LS.mirror
    beta_reduce
    rcases lt_trichotomy i j with h | h | h
    · rw [if_neg h.ne, if_pos h, if_neg h.ne, if_pos h, (hv i j h.ne).1]
    · rw [if_pos h, if_pos h]
    · rw [if_neg h.ne', if_neg h.not_gt, if_neg h.ne', if_neg h.not_gt, (hv j i h.ne).1]
  · intro i; exact if_pos rfl
  · intro i j
    beta_reduce
    rcases lt_trichotomy i j with h | h | h
    · rw [if_neg h.ne, if_pos h, if_neg h.ne', if_neg h.not_gt]
    · subst h; rfl
    · rw [if_neg h.ne', if_neg h.not_gt, if_neg h.ne, if_pos h]
  · intro i j hij
    beta_reduce
    rw [if_neg hij]
    split
    · exact (hv i j hij).2
    · exact (hv j i hij.symm).2

/-- Correctly rounded functions, sums from left to right. -/
noncomputable def Lib.rounded : Lib where
  exp a := (Ieee.double.rounding ℝ).up (XR.exp a)
  log a := (Ieee.double.rounding ℝ).up (XR.log a)
  sqrt a := (Ieee.double.rounding ℝ).up (XR.sqrt a)
  sum l := l.foldl (Ieee.double.rounding ℝ).add (.fin 0)

/-- Rounding between powers of two changes numbers by a factor of at most two. -/
theorem round_factor {x : ℝ} {a b : ℤ} (ha : -1022 ≤ a) (hb : b < 1023) (h0 : 2 ^ a ≤ x) (h1 : x ≤ 2 ^ b) :
    ∃ z, Ieee.double.round x = .fin z ∧ x / 2 ≤ z ∧ z ≤ 2 * x := by
  have hx : 0 < x := (zpow_pos two_pos _).trans_le h0
  have l := Int.zpow_log_le_self (b := 2) (by norm_num) hx
  have u := Int.lt_zpow_succ_log_self (b := 2) (by norm_num) x
  push_cast at l u
  have hla : a ≤ Int.log 2 x := by
    by_contra hlt
    have h2 : (2 : ℝ) ^ (Int.log 2 x + 1) ≤ 2 ^ a := zpow_le_zpow_right₀ one_le_two (by omega)
    exact absurd (u.trans_le h2) (not_lt.2 h0)
  have hlb : Int.log 2 x ≤ b := by
    by_contra hlt
    have h2 : (2 : ℝ) ^ b < 2 ^ Int.log 2 x := zpow_lt_zpow_right₀ one_lt_two (by omega)
    exact absurd (h2.trans_le l) (not_lt.2 h1)
  obtain ⟨z, hz, z0, z1⟩ := Ieee.round_between Ieee.double (a := Int.log 2 x) (b := Int.log 2 x + 1)
    (by simp only [Ieee.double]; omega) (by simp only [Ieee.double]; omega) l u.le
  rw [zpow_add_one₀ two_ne_zero] at u z1
  exact ⟨z, hz, by linarith, by linarith⟩

theorem Lib.rounded_near : Lib.rounded.Near where
  sum_some_order l hl := sums_foldl _ l hl
  log_near x h0 h1 := by
    have hx : 0 < x := (zpow_pos two_pos _).trans_le h0
    have hfl : ∀ m : ℤ, |m| ≤ 2 ^ 53 → Ieee.double.round (m : ℝ) = .fin (m : ℝ) := by
      intro m hm
      have := Ieee.round_grid (K := ℝ) Ieee.double (z := m) (t := 0) hm (by norm_num [Ieee.double])
        (by norm_num [Ieee.double])
      simpa using this
    have hb := log_two_zpow_abs h0 h1
    rw [abs_le] at hb
    have f0 : -141 ≤ ⌊Real.log x⌋ := Int.le_floor.2 (by push_cast; linarith)
    have f1 : ⌊Real.log x⌋ ≤ 140 := by
      have : (⌊Real.log x⌋ : ℝ) ≤ 140 := (Int.floor_le _).trans hb.2
      exact_mod_cast this
    obtain ⟨y, hy, y0, y1⟩ := Ieee.round_sandwich Ieee.double (x := Real.log x)
      (hfl ⌊Real.log x⌋ (by rw [abs_le]; constructor <;> norm_num <;> omega))
      (hfl (⌊Real.log x⌋ + 1) (by rw [abs_le]; constructor <;> norm_num <;> omega)) (Int.floor_le _)
      (by push_cast; exact (Int.lt_floor_add_one _).le)
    refine ⟨y, ?_, (Ieee.double.rounding ℝ).idem _ _ hy, ?_⟩
    · show (Ieee.double.rounding ℝ).up (XR.log (.fin x)) = _
      have : XR.log (.fin x) = .fin (Real.log x) := by simp [XR.log, hx.ne', hx, hx.not_gt]
      rw [this]
      exact hy
    · have := Int.floor_le (Real.log x)
      have := Int.lt_floor_add_one (Real.log x)
      push_cast at y1
      rw [abs_le]
      constructor <;> linarith
  exp_near y h := by
    rw [abs_le] at h
    have h1 : Real.exp y ≤ 2 ^ (370 : ℤ) := (Real.exp_le_exp.2 h.2).trans exp_le_two_zpow
    have h0 : (2 : ℝ) ^ (-370 : ℤ) ≤ Real.exp y := by
      refine le_trans ?_ (Real.exp_le_exp.2 h.1)
      rw [Real.exp_neg, zpow_neg]
      exact inv_anti₀ (Real.exp_pos _) exp_le_two_zpow
    exact round_factor (by norm_num) (by norm_num) h0 h1
  sqrt_near x h0 h1 := by
    have hx : 0 < x := (zpow_pos two_pos _).trans_le h0
    obtain ⟨z, hz, h⟩ := round_factor (x := Real.sqrt x) (a := -200) (b := 200) (by norm_num) (by norm_num)
      (Real.le_sqrt_of_sq_le (by rw [← zpow_natCast, ← zpow_mul]; exact h0))
      (Real.sqrt_le_iff.2 ⟨(zpow_pos two_pos _).le, by rw [← zpow_natCast, ← zpow_mul]; exact h1⟩)
    refine ⟨z, ?_, h⟩
    show (Ieee.double.rounding ℝ).up (XR.sqrt (.fin x)) = _
    have : XR.sqrt (.fin x) = .fin (Real.sqrt x) := by simp [XR.sqrt, hx.le, hx.not_gt]
    rw [this]
    exact hz

/-- The hypotheses of `C185_regular_partial` hold for correctly rounded functions and the points 0, 1 and 3 on a line. -/
example (nJobs : ℤ) := C185_regular_partial Lib.rounded Lib.rounded_near LS.stdWorld (n := 3) (by norm_num) (by norm_num)
  LS.line3
  (fun i j hij => by
    have h := fun m hm => Ieee.round_grid (K := ℝ) Ieee.double (z := m) (t := 0) hm (by norm_num [Ieee.double])
        (by norm_num [Ieee.double])
    simp only [zpow_zero, mul_one] at h
    have h1 := h 1 (by norm_num [Ieee.double])
    have h2 := h 2 (by norm_num [Ieee.double])
    have h3 := h 3 (by norm_num [Ieee.double])
    push_cast at h1 h2 h3
    fin_cases i <;> fin_cases j <;> first | exact absurd rfl hij | exact h1 | exact h2 | exact h3)
  (fun i j hij => by
    have h0 : (2 : ℝ) ^ (-200 : ℤ) ≤ 1 := zpow_le_one_of_nonpos₀ one_le_two (by norm_num)
    have h1 : (4 : ℝ) ≤ 2 ^ (200 : ℤ) := by
      have : (2 : ℝ) ^ (2 : ℤ) ≤ 2 ^ (200 : ℤ) := zpow_le_zpow_right₀ one_le_two (by norm_num)
      refine le_trans ?_ this
      norm_num
    fin_cases i <;> fin_cases j <;>
      first | exact absurd rfl hij | exact ⟨h0.trans (by norm_num [LS.line3]), le_trans (by norm_num [LS.line3]) h1⟩)
  none (k := 1) le_rfl (by decide) nJobs

end Rounding

end HubToolbox
