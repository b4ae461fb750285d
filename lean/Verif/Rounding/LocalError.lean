import Verif.Rounding.NicdmRegular
import Verif.LS.Scale
import Verif.LS.Examples
import Verif.Rounding.CosineError
import Verif.LS.Props

/-!
# Local Scaling in double precision: accuracy (C210) and change of unit (C211)
-/

set_option autoImplicit false

namespace HubToolbox

namespace Ieee

section
variable {K : Type} [Field K] [LinearOrder K] [FloorRing K] [IsStrictOrderedRing K] (F : Ieee)

theorem nearest_shift {x : K} {e : ℤ} (h0 : 2 ^ F.emin ≤ |x|) (h1 : 2 ^ F.emin ≤ |2 ^ e * x|) :
    F.nearest (2 ^ e * x) = 2 ^ e * F.nearest x := by
  have hp : (0 : K) < 2 ^ e := zpow_pos two_pos _
  have hx : 0 < |x| := (zpow_pos two_pos _).trans_le h0
  have hlog : ∀ y : K, 2 ^ F.emin ≤ |y| → F.emin ≤ Int.log 2 |y| := by
    intro y hy
    by_contra hlt
    have u := Int.lt_zpow_succ_log_self (b := 2) (by norm_num) |y|
    push_cast at u
    have h2 : (2 : K) ^ (Int.log 2 |y| + 1) ≤ 2 ^ F.emin := zpow_le_zpow_right₀ one_le_two (by omega)
    exact absurd (u.trans_le h2) (not_lt.2 hy)
  have hl : Int.log 2 |2 ^ e * x| = e + Int.log 2 |x| := by
    have l := Int.zpow_log_le_self (b := 2) (by norm_num) hx
    have u := Int.lt_zpow_succ_log_self (b := 2) (by norm_num) |x|
    push_cast at l u
    have hx' : 0 < |2 ^ e * x| := (zpow_pos two_pos _).trans_le h1
    have l' := Int.zpow_log_le_self (b := 2) (by norm_num) hx'
    have u' := Int.lt_zpow_succ_log_self (b := 2) (by norm_num) |2 ^ e * x|
    push_cast at l' u'
    rw [abs_mul, abs_of_pos hp] at l' u' ⊢
    have a1 : (2 : K) ^ (e + Int.log 2 |x|) < 2 ^ (Int.log 2 (2 ^ e * |x|) + 1) := by
      rw [zpow_add₀ two_ne_zero]
      exact (mul_le_mul_of_nonneg_left l hp.le).trans_lt u'
    have a2 : (2 : K) ^ Int.log 2 (2 ^ e * |x|) < 2 ^ (e + (Int.log 2 |x| + 1)) := by
      rw [zpow_add₀ two_ne_zero e]
      exact l'.trans_lt (mul_lt_mul_of_pos_left u hp)
    have b1 := (zpow_lt_zpow_iff_right₀ (one_lt_two : (1 : K) < 2)).1 a1
    have b2 := (zpow_lt_zpow_iff_right₀ (one_lt_two : (1 : K) < 2)).1 a2
    omega
  have hs : F.spacing (2 ^ e * x) = e + F.spacing x := by
    unfold spacing
    rw [max_eq_left (hlog _ h0), max_eq_left (hlog _ h1), hl]
    ring
  unfold nearest
  rw [hs, zpow_add₀ two_ne_zero, mul_div_mul_left _ _ hp.ne']
  ring

/-- Rounding commutes with multiplication by powers of two, as long as nothing under- or overflows. -/
theorem round_shift {x : K} {e : ℤ} (h : x = 0 ∨ (2 ^ F.emin ≤ |x| ∧ 2 ^ F.emin ≤ |2 ^ e * x|)) (hb : |x| ≤ 2 ^ F.emax)
    (hb' : |2 ^ e * x| ≤ 2 ^ F.emax) : ∃ y, F.round x = .fin y ∧ F.round (2 ^ e * x) = .fin (2 ^ e * y) := by
  rcases h with rfl | ⟨h0, h1⟩
  · rw [mul_zero]
    exact ⟨0, (F.rounding K).zero, by rw [mul_zero]; exact (F.rounding K).zero⟩
  · have hf : ∀ z : K, 2 ^ F.emin ≤ |z| → |z| ≤ 2 ^ F.emax → F.round z = .fin (F.nearest z) := by
      intro z hz hz'
      obtain ⟨y, hy, -, -⟩ := F.round_rel (Or.inr hz) hz'
      unfold round at hy ⊢
      split_ifs at hy with c1 c2
      rw [if_neg c1, if_neg c2]
    refine ⟨F.nearest x, hf x h0 hb, ?_⟩
    rw [hf _ h1 hb', F.nearest_shift h0 h1]

end

end Ieee

namespace Rounding

open Ieee (double)

/-! ### Accuracy -/

/-- The exponential function as computed: for nonpositive arguments the result is a float from zero to one
and off by at most `2 ^ -52`. -/
def Lib.ExpNear (L : Lib) : Prop :=
  ∀ t : ℝ, 0 ≤ t → ∃ y, L.exp (.fin (-t)) = .fin y ∧ double.round y = .fin y ∧ (0 ≤ y ∧ y ≤ 1) ∧
    |y - Real.exp (-t)| ≤ 2 ^ (-52 : ℤ)

theorem exp_lip {a b : ℝ} (h : a ≤ b) : Real.exp (-a) - Real.exp (-b) ≤ (b - a) * Real.exp (-a) := by
  have h1 : Real.exp (-b) = Real.exp (-a) * Real.exp (-(b - a)) := by rw [← Real.exp_add]; congr 1; ring
  have h2 := Real.add_one_le_exp (-(b - a))
  have h3 := Real.exp_pos (-a)
  rw [h1]
  nlinarith

theorem mul_exp_neg_le (y : ℝ) : y * Real.exp (-y) ≤ 1 / 2 := by
  have h1 : Real.exp (-y) * Real.exp (y - 1) = Real.exp (-1) := by rw [← Real.exp_add]; congr 1; ring
  have h2 := Real.add_one_le_exp (y - 1)
  have h3 := Real.exp_pos (-y)
  have h4 : Real.exp (-1) ≤ 1 / 2 := by
    rw [Real.exp_neg, one_div]
    apply inv_anti₀ two_pos
    have := Real.add_one_le_exp (1 : ℝ)
    linarith
  nlinarith

/-- A small relative error of the argument is a small absolute error of `exp (-t)`. -/
theorem exp_rel {t s ε : ℝ} (ht : 0 ≤ t) (hε : 0 ≤ ε) (hε' : ε ≤ 1 / 2) (h : |s - t| ≤ ε * t) :
    |Real.exp (-s) - Real.exp (-t)| ≤ ε := by
  rw [abs_le] at h
  have key : ∀ a b, a ≤ b → b - a ≤ ε * t → (1 - ε) * t ≤ a → Real.exp (-a) - Real.exp (-b) ≤ ε := by
    intro a b hab h1 h2
    have e1 := exp_lip hab
    have e2 : Real.exp (-a) ≤ Real.exp (-((1 - ε) * t)) := Real.exp_le_exp.2 (by linarith)
    have e3 := mul_exp_neg_le ((1 - ε) * t)
    have e4 := Real.exp_pos (-((1 - ε) * t))
    have e5 : (b - a) * Real.exp (-a) ≤ ε * t * Real.exp (-((1 - ε) * t)) :=
      mul_le_mul h1 e2 (Real.exp_pos _).le (by positivity)
    have e6 : t * Real.exp (-((1 - ε) * t)) ≤ 1 := by
      have : 0 ≤ t * Real.exp (-((1 - ε) * t)) := by positivity
      nlinarith
    nlinarith
  rcases le_total s t with hs | hs
  · have := key s t hs (by linarith) (by linarith)
    rw [abs_le]
    have h1 : Real.exp (-t) ≤ Real.exp (-s) := Real.exp_le_exp.2 (by linarith)
    constructor <;> linarith
  · have := key t s hs (by linarith) (by nlinarith)
    rw [abs_le]
    have h1 : Real.exp (-s) ≤ Real.exp (-t) := Real.exp_le_exp.2 (by linarith)
    constructor <;> linarith

theorem within_round {a b : ℤ} (ha : -1022 ≤ a) (hb : b ≤ 1023) {x : ℝ} (h : Within a b x) :
    ∃ y, double.round x = .fin y ∧ double.round y = .fin y ∧ |y - x| ≤ u * |x| := by
  have hz : (2 : ℝ) ^ b ≤ 2 ^ double.emax := zpow_le_zpow_right₀ one_le_two hb
  have hz' : (2 : ℝ) ^ double.emin ≤ 2 ^ a := zpow_le_zpow_right₀ one_le_two ha
  apply Ieee.round_rel
  · rcases h with h | h
    · exact Or.inl h
    · exact Or.inr (hz'.trans h.1)
  · rcases h with h | h
    · rw [h, abs_zero]; exact (zpow_pos two_pos _).le
    · exact h.2.trans hz

theorem div_fin (x : ℝ) {y : ℝ} (hy : y ≠ 0) : XR.div (.fin x) (.fin y) = .fin (x / y) := by simp [XR.div, hy]

/-- The argument of the exponential function. -/
theorem lsArg_error {d ri rj : ℝ} (hd : Within (-200) 200 d)
    (hi : 2 ^ (-200 : ℤ) ≤ ri) (hi' : ri ≤ 2 ^ (200 : ℤ)) (hj : 2 ^ (-200 : ℤ) ≤ rj) (hj' : rj ≤ 2 ^ (200 : ℤ)) :
    ∃ s, (double.rounding ℝ).div ((double.rounding ℝ).mul (.fin (-1)) ((double.rounding ℝ).mul (.fin d) (.fin d)))
        ((double.rounding ℝ).mul (.fin ri) (.fin rj)) = .fin (-s) ∧ 0 ≤ s ∧
      |s - d ^ 2 / (ri * rj)| ≤ 4 * u * (d ^ 2 / (ri * rj)) := by
  have hu := u_pos
  have hu8 : u ≤ 1 / 64 := by
    have := du_le (d := 0) (by norm_num)
    simpa using this
  have pi : 0 < ri := (zpow_pos two_pos _).trans_le hi
  have pj : 0 < rj := (zpow_pos two_pos _).trans_le hj
  have wi : Within (-200) 200 ri := Or.inr ⟨by rwa [abs_of_pos pi], by rwa [abs_of_pos pi]⟩
  have wj : Within (-200) 200 rj := Or.inr ⟨by rwa [abs_of_pos pj], by rwa [abs_of_pos pj]⟩
  obtain ⟨p, hp, hpf, hpe⟩ := within_round (by norm_num) (by norm_num) (within_mul hd hd)
  obtain ⟨q, hq, hqf, hqe⟩ := within_round (by norm_num) (by norm_num) (within_mul wi wj)
  have hrr : 0 < ri * rj := mul_pos pi pj
  rw [abs_of_pos hrr, abs_le] at hqe
  rw [abs_of_nonneg (mul_self_nonneg d), abs_le] at hpe
  have hq0 : (1 - u) * (ri * rj) ≤ q := by linarith [hqe.1]
  have hq1 : q ≤ (1 + u) * (ri * rj) := by linarith [hqe.2]
  have hqpos : 0 < q := lt_of_lt_of_le (mul_pos (by linarith) hrr) hq0
  have hp0 : (1 - u) * (d * d) ≤ p := by linarith [hpe.1]
  have hp1 : p ≤ (1 + u) * (d * d) := by linarith [hpe.2]
  have hdd : 0 ≤ d * d := mul_self_nonneg d
  have hppos : 0 ≤ p := le_trans (mul_nonneg (by linarith) hdd) hp0
  set t := d ^ 2 / (ri * rj) with ht
  have ht0 : 0 ≤ t := by positivity
  have htd : t * (ri * rj) = d * d := by rw [ht]; field_simp
  have hup : p / q ≤ (1 + u) / (1 - u) * t := by
    rw [div_le_iff₀ hqpos]
    have h1u : 0 < 1 - u := by linarith
    have : (1 + u) / (1 - u) * t * q ≥ (1 + u) / (1 - u) * t * ((1 - u) * (ri * rj)) :=
      mul_le_mul_of_nonneg_left hq0 (by positivity)
    have e : (1 + u) / (1 - u) * t * ((1 - u) * (ri * rj)) = (1 + u) * (t * (ri * rj)) := by field_simp
    rw [e, htd] at this
    linarith
  have hlo : (1 - u) / (1 + u) * t ≤ p / q := by
    rw [le_div_iff₀ hqpos]
    have h1u : 0 < 1 - u := by linarith
    have : (1 - u) / (1 + u) * t * q ≤ (1 - u) / (1 + u) * t * ((1 + u) * (ri * rj)) :=
      mul_le_mul_of_nonneg_left hq1 (by positivity)
    have e : (1 - u) / (1 + u) * t * ((1 + u) * (ri * rj)) = (1 - u) * (t * (ri * rj)) := by field_simp
    rw [e, htd] at this
    linarith
  have h1 : (1 + u) / (1 - u) ≤ 1 + 5 / 2 * u := by
    rw [div_le_iff₀ (by linarith)]
    nlinarith
  have h2 : 1 - 2 * u ≤ (1 - u) / (1 + u) := by
    rw [le_div_iff₀ (by linarith)]
    nlinarith
  have hup' : p / q ≤ (1 + 5 / 2 * u) * t := hup.trans (mul_le_mul_of_nonneg_right h1 ht0)
  have hlo' : (1 - 2 * u) * t ≤ p / q := (mul_le_mul_of_nonneg_right h2 ht0).trans hlo
  have hpq0 : 0 ≤ p / q := div_nonneg hppos hqpos.le
  have hwt : Within (-800) 800 t := by
    rcases hd with rfl | ⟨d0, d1⟩
    · left; rw [ht]; simp
    · right
      have e1 : (2 : ℝ) ^ (-400 : ℤ) ≤ ri * rj := by
        rw [show (-400 : ℤ) = -200 + -200 by norm_num, zpow_add₀ two_ne_zero]
        exact mul_le_mul hi hj (zpow_pos two_pos _).le pi.le
      have e2 : ri * rj ≤ (2 : ℝ) ^ (400 : ℤ) := by
        rw [show (400 : ℤ) = 200 + 200 by norm_num, zpow_add₀ two_ne_zero]
        exact mul_le_mul hi' hj' pj.le (zpow_pos two_pos _).le
      have e3 : (2 : ℝ) ^ (-400 : ℤ) ≤ d * d := by
        rw [show (-400 : ℤ) = -200 + -200 by norm_num, zpow_add₀ two_ne_zero, ← abs_mul_abs_self d]
        exact mul_le_mul d0 d0 (zpow_pos two_pos _).le (abs_nonneg _)
      have e4 : d * d ≤ (2 : ℝ) ^ (400 : ℤ) := by
        rw [show (400 : ℤ) = 200 + 200 by norm_num, zpow_add₀ two_ne_zero, ← abs_mul_abs_self d]
        exact mul_le_mul d1 d1 (abs_nonneg _) (zpow_pos two_pos _).le
      rw [abs_of_nonneg ht0, ht, sq]
      constructor
      · rw [le_div_iff₀ hrr]
        calc (2 : ℝ) ^ (-800 : ℤ) * (ri * rj) ≤ 2 ^ (-800 : ℤ) * 2 ^ (400 : ℤ) :=
              mul_le_mul_of_nonneg_left e2 (zpow_pos two_pos _).le
          _ = 2 ^ (-400 : ℤ) := by rw [← zpow_add₀ two_ne_zero]; norm_num
          _ ≤ _ := e3
      · rw [div_le_iff₀ hrr]
        calc d * d ≤ 2 ^ (400 : ℤ) := e4
          _ = 2 ^ (800 : ℤ) * 2 ^ (-400 : ℤ) := by rw [← zpow_add₀ two_ne_zero]; norm_num
          _ ≤ _ := mul_le_mul_of_nonneg_left e1 (zpow_pos two_pos _).le
  have hwq : Within (-801) 801 (p / q) := by
    rcases hwt with h | ⟨t0, t1⟩
    · left
      rw [h, mul_zero] at hup'
      exact le_antisymm hup' hpq0
    · right
      rw [abs_of_nonneg ht0] at t0 t1
      rw [abs_of_nonneg hpq0]
      have e1 : (2 : ℝ) ^ (801 : ℤ) = 2 * 2 ^ (800 : ℤ) := by rw [← zpow_one_add₀ two_ne_zero]; norm_num
      have e2 : (2 : ℝ) ^ (-800 : ℤ) = 2 * 2 ^ (-801 : ℤ) := by rw [← zpow_one_add₀ two_ne_zero]; norm_num
      have e3 : t ≤ 2 * (p / q) := by nlinarith
      have e4 : p / q ≤ 2 * t := by nlinarith
      rw [e2] at t0
      constructor
      · exact le_of_mul_le_mul_left (t0.trans e3) two_pos
      · rw [e1]
        exact e4.trans (mul_le_mul_of_nonneg_left t1 two_pos.le)
  obtain ⟨s, hs, hsf, hse⟩ := within_round (by norm_num) (by norm_num) hwq
  rw [abs_of_nonneg hpq0, abs_le] at hse
  have hs0 : 0 ≤ s := by nlinarith [hse.1]
  have hst : |s - t| ≤ 4 * u * t := by
    have hut : 0 ≤ u * t := mul_nonneg hu.le ht0
    rw [abs_le]
    constructor
    · nlinarith [hse.1]
    · nlinarith [hse.2]
  refine ⟨s, ?_, hs0, hst⟩
  have m1 : (double.rounding ℝ).mul (.fin d) (.fin d) = .fin p := hp
  have m2 : (double.rounding ℝ).mul (.fin ri) (.fin rj) = .fin q := hq
  have m3 : (double.rounding ℝ).mul (.fin (-1)) (.fin p) = .fin (-p) := by
    rw [mul_fin, neg_one_mul]
    exact Ieee.neg_float double hpf
  rw [m1, m2, m3]
  unfold div
  rw [div_fin _ hqpos.ne', neg_div]
  change (double.rounding ℝ).rnd _ = _
  rw [(double.rounding ℝ).neg]
  change XR.neg (double.round (p / q)) = _
  rw [hs]
  rfl

/-- One entry. -/
theorem lsEntry_error (L : Lib) (hexp : L.ExpNear) {d ri rj : ℝ} (hd : Within (-200) 200 d)
    (hi : 2 ^ (-200 : ℤ) ≤ ri) (hi' : ri ≤ 2 ^ (200 : ℤ)) (hj : 2 ^ (-200 : ℤ) ≤ rj) (hj' : rj ≤ 2 ^ (200 : ℤ)) :
    ∃ v, (double.rounding ℝ).lsEntry L "distance" (.fin d) (.fin ri) (.fin rj) = .fin v ∧ double.round v = .fin v ∧
      |v - Spec.localScaling d ri rj| ≤ 2 ^ (-50 : ℤ) := by
  have hu := u_pos
  have hu8 : u ≤ 1 / 64 := by
    have := du_le (d := 0) (by norm_num)
    simpa using this
  have pi : 0 < ri := (zpow_pos two_pos _).trans_le hi
  have pj : 0 < rj := (zpow_pos two_pos _).trans_le hj
  obtain ⟨s, hs, hs0, hst⟩ := lsArg_error hd hi hi' hj hj'
  clear hd hi hi' hj hj'
  set t := d ^ 2 / (ri * rj) with ht
  have ht0 : 0 ≤ t := by positivity
  have hes := exp_rel ht0 (by linarith) (by linarith) hst
  obtain ⟨y, hy, hyf, hyr, hye⟩ := hexp s hs0
  have hone : double.round (1 : ℝ) = .fin 1 := (double.rounding ℝ).one
  have hneg := Ieee.neg_float double hyf
  obtain ⟨v, hv, -, -⟩ := (double.rounding ℝ).unit (x := 1 + -y) (by linarith [hyr.2]) (by linarith [hyr.1])
  have hvn : v = double.nearest (1 + -y) := by
    have hv' : double.round (1 + -y) = .fin v := hv
    unfold Ieee.round at hv'
    split_ifs at hv'
    exact (XR.fin.inj hv').symm
  have herr := Ieee.abs_add_error double hone hneg
  rw [← hvn] at herr
  refine ⟨v, ?_, (double.rounding ℝ).idem _ _ hv, ?_⟩
  · unfold lsEntry
    simp only [show ("distance" : String) ≠ "similarity" by decide, if_false]
    rw [hs, hy]
    exact hv
  · have hy1 : |1 + -y| ≤ 1 := by rw [abs_le]; constructor <;> linarith [hyr.1, hyr.2]
    have e2 : (2 : ℝ) ^ (-52 : ℤ) = 2 * u := by rw [u_eq, ← zpow_one_add₀ two_ne_zero]; norm_num
    have e8 : (2 : ℝ) ^ (-50 : ℤ) = 8 * u := by
      rw [u_eq, show (8 : ℝ) = 2 ^ (3 : ℤ) by norm_num, ← zpow_add₀ two_ne_zero]; norm_num
    rw [e2] at hye
    rw [e8]
    have h6 : u * |1 + -y| ≤ u := mul_le_of_le_one_right hu.le hy1
    unfold Spec.localScaling
    rw [← ht]
    have h7 : |v - (1 + -y)| ≤ u := by
      refine le_trans herr ?_
      exact h6
    rw [abs_le] at h7 hye hes ⊢
    constructor <;> linarith [h7.1, h7.2, hye.1, hye.2, hes.1, hes.2]

/-- **C210.** In float64, all values of Local Scaling of symmetric distances which are zero or between `2 ^ -200` and `2 ^ 200`
differ from the exact values by at most `2 ^ -50`, whatever the number of points and neighbours, and the number of processes. -/
theorem C210 (L : Lib) (hexp : L.ExpNear) (w : LS.World) {n : ℕ} (hn : 0 < n) (x : Fin n → Fin n → ℝ)
    (hsym : ∀ i j, x i j = x j i) (hx : ∀ i j, i ≠ j → Within (-200) 200 (x i j)) (k : ℕ) (hk : 1 ≤ k)
    (test : Option (List ℤ)) (nJobs : ℤ) (hj : nJobs = -1 ∨ 1 ≤ nJobs) (r : Fin n → ℝ)
    (hr : ∀ i, Spec.IsKthSmallest ((Spec.training n test).erase i) (x i) k (r i)) (hpos : ∀ i, 0 < r i) :
    ∃ M : Fin n → Fin n → ℝ,
      (double.rounding ℝ).localScaling L w (.mat false n n (LS.toXR x)) k "distance" test nJobs = .ok ⟨n, LS.toXR M⟩ ∧
      (∀ i, M i i = 0) ∧ ∀ i j, i ≠ j → |M i j - Spec.localScaling (x i j) (r i) (r j)| ≤ 2 ^ (-50 : ℤ) := by
  have hcard : ∀ i, k ≤ ((Spec.training n test).erase i).card := fun i =>
    (hr i).upto.trans (Finset.card_le_card (Finset.filter_subset _ _))
  have hlen : k ≤ (LS.trainInd n test).length := (hcard ⟨0, hn⟩).trans (LS.training_card_le n test _)
  have hrange : ∀ i, 2 ^ (-200 : ℤ) ≤ r i ∧ r i ≤ 2 ^ (200 : ℤ) := by
    intro i
    obtain ⟨j, hjm, hji⟩ := (hr i).attained
    have hne : i ≠ j := (Finset.ne_of_mem_erase hjm).symm
    have hp := hpos i
    rcases hx i j hne with h | h
    · rw [hji] at h; exact absurd h hp.ne'
    · rwa [hji, abs_of_pos hp] at h
  have hent : ∀ i j, i ≠ j → ∃ v, (double.rounding ℝ).lsEntry L "distance" (.fin (x i j)) (.fin (r i)) (.fin (r j)) = .fin v ∧
      double.round v = .fin v ∧ |v - Spec.localScaling (x i j) (r i) (r j)| ≤ 2 ^ (-50 : ℤ) := fun i j hij =>
    lsEntry_error L hexp (hx i j hij) (hrange i).1 (hrange i).2 (hrange j).1 (hrange j).2
  choose! V hV hVf hVe using hent
  refine ⟨fun i j => if i = j then 0 else if i < j then V i j else V j i, ?_, ?_, ?_⟩
  · rw [localScaling_dense L w _ _ _ (Or.inl rfl), lsCore_ok L w _ _ _ _ _ (LS.jobs_pos w nJobs hj) ⟨k - 1, by omega⟩]
    · change Except.ok _ = Except.ok _
      congr 2
      funext i j
      have hrad : ∀ i, LS.rankVal (LS.cols (Np.fillDiagonal (LS.toXR x) (LS.exclude "distance")) (LS.trainInd n test) i)
          ⟨k - 1, by omega⟩ = .fin (r i) := by
        intro i
        obtain ⟨ρ, h1, h2⟩ := LS.rankVal_kthSmallest x test i k hk (hcard i) ⟨k - 1, by omega⟩ rfl
        rw [LS.kthSmallest_unique (hr i) h2]
        exact h1
      unfold lsResult LS.toXR LS.mirror
      simp only
      by_cases h : i = j
      · simp [h, LS.selfValue]
      · rw [if_neg h, if_neg h]
        by_cases h' : i < j
        · rw [if_pos h', if_pos h', ← hVf i j h]
          unfold LS.toXR at hrad
          simp only [hrad]
          rw [hV i j h]
          rfl
        · rw [if_neg h', if_neg h', ← hVf j i (Ne.symm h)]
          unfold LS.toXR at hrad
          simp only [hrad]
          rw [hV j i (Ne.symm h)]
          rfl
    · unfold LS.kthOf
      rw [if_neg (by decide)]
      exact LS.wrap_pred hk hlen
  · intro i
    simp
  · intro i j hij
    beta_reduce
    rw [if_neg hij]
    by_cases h' : i < j
    · rw [if_pos h']
      exact hVe i j hij
    · rw [if_neg h']
      have := hVe j i (Ne.symm hij)
      rw [hsym j i] at this
      unfold Spec.localScaling at this ⊢
      rwa [mul_comm (r j)] at this

/-- **C210** (any unit). Multiplying all distances by a positive number changes the values by at most `2 ^ -49`. -/
theorem C210_unit (L : Lib) (hexp : L.ExpNear) (w w' : LS.World) {n : ℕ} (hn : 0 < n) {c : ℝ} (hc : 0 < c)
    (x : Fin n → Fin n → ℝ) (hsym : ∀ i j, x i j = x j i) (hx : ∀ i j, i ≠ j → Within (-200) 200 (x i j))
    (hcx : ∀ i j, i ≠ j → Within (-200) 200 (c * x i j)) (k : ℕ) (hk : 1 ≤ k)
    (test : Option (List ℤ)) (nJobs nJobs' : ℤ) (hj : nJobs = -1 ∨ 1 ≤ nJobs) (hj' : nJobs' = -1 ∨ 1 ≤ nJobs') (r : Fin n → ℝ)
    (hr : ∀ i, Spec.IsKthSmallest ((Spec.training n test).erase i) (x i) k (r i)) (hpos : ∀ i, 0 < r i) :
    ∃ M M' : Fin n → Fin n → ℝ,
      (double.rounding ℝ).localScaling L w (.mat false n n (LS.toXR x)) k "distance" test nJobs = .ok ⟨n, LS.toXR M⟩ ∧
      (double.rounding ℝ).localScaling L w' (.mat false n n (LS.toXR (fun i j => c * x i j))) k "distance" test nJobs' =
        .ok ⟨n, LS.toXR M'⟩ ∧
      ∀ i j, |M' i j - M i j| ≤ 2 ^ (-49 : ℤ) := by
  obtain ⟨M, hM, hd, he⟩ := C210 L hexp w hn x hsym hx k hk test nJobs hj r hr hpos
  have hr' : ∀ i, Spec.IsKthSmallest ((Spec.training n test).erase i) (fun j => c * x i j) k (c * r i) := by
    intro i
    refine ⟨?_, ?_, ?_⟩
    · obtain ⟨j, h1, h2⟩ := (hr i).attained
      exact ⟨j, h1, by rw [h2]⟩
    · simpa only [mul_lt_mul_iff_right₀ hc] using (hr i).below
    · simpa only [mul_le_mul_iff_right₀ hc] using (hr i).upto
  obtain ⟨M', hM', hd', he'⟩ := C210 L hexp w' hn (fun i j => c * x i j) (fun i j => by rw [hsym]) hcx k hk test nJobs' hj'
    (fun i => c * r i) hr' (fun i => mul_pos hc (hpos i))
  refine ⟨M, M', hM, hM', fun i j => ?_⟩
  by_cases hij : i = j
  · subst hij
    rw [hd, hd', sub_self, abs_zero]
    exact (zpow_pos two_pos _).le
  · have h1 := he i j hij
    have h2 := he' i j hij
    have e : Spec.localScaling (c * x i j) (c * r i) (c * r j) = Spec.localScaling (x i j) (r i) (r j) := by
      unfold Spec.localScaling
      rw [show (c * x i j) ^ 2 / (c * r i * (c * r j)) = x i j ^ 2 / (r i * r j) by
        have := (hpos i).ne'
        have := (hpos j).ne'
        field_simp]
    rw [e] at h2
    have e2 : (2 : ℝ) ^ (-49 : ℤ) = 2 ^ (-50 : ℤ) + 2 ^ (-50 : ℤ) := by
      rw [← two_mul, ← zpow_one_add₀ two_ne_zero]; norm_num
    rw [e2]
    rw [abs_le] at h1 h2 ⊢
    constructor <;> linarith [h1.1, h1.2, h2.1, h2.2]

/-! ### Change of unit by a power of two -/

/-- Floats which are infinite, not a number, zero, or between powers of two in magnitude. -/
def Regular (a b : ℤ) : XR ℝ → Prop
  | .fin x => Within a b x
  | _ => True

section
variable {F : Ieee} {a b e : ℤ}

/-- Multiplication by `2 ^ e` commutes with rounded products. -/
theorem mul_shift (h0 : F.emin ≤ 2 * a) (h1 : F.emin ≤ 2 * (a + e)) (h2 : 2 * b ≤ F.emax) (h3 : 2 * (b + e) ≤ F.emax)
    {v w : XR ℝ} (hv : Regular a b v) (hw : Regular a b w) :
    (F.rounding ℝ).mul (XR.scale (2 ^ e) v) (XR.scale (2 ^ e) w) =
      XR.scale (2 ^ e * 2 ^ e) ((F.rounding ℝ).mul v w) := by
  have hc : (0 : ℝ) < 2 ^ e := zpow_pos two_pos _
  have hcc : (0 : ℝ) < 2 ^ e * 2 ^ e := mul_pos hc hc
  unfold mul
  rw [LS.mul_scale hc]
  have hinf : ∀ y, (F.rounding ℝ).up (XR.scale (2 ^ e * 2 ^ e) (XR.infMul y)) =
      XR.scale (2 ^ e * 2 ^ e) ((F.rounding ℝ).up (XR.infMul y)) := by
    intro y
    unfold XR.infMul
    split_ifs <;> rfl
  cases v with
  | nan => rfl
  | ninf => cases w <;> first | rfl | exact hinf _
  | pinf => cases w <;> first | rfl | exact hinf _
  | fin x =>
    cases w with
    | nan => rfl
    | ninf => exact hinf _
    | pinf => exact hinf _
    | fin y =>
      have hxy := within_mul (hv : Within a b x) (hw : Within a b y)
      have e2 : (2 : ℝ) ^ e * 2 ^ e = 2 ^ (2 * e) := by rw [two_mul, zpow_add₀ two_ne_zero]
      have hpow : ∀ m : ℤ, (2 : ℝ) ^ (2 * e) * 2 ^ (m + m) = 2 ^ (2 * (m + e)) := by
        intro m
        rw [← zpow_add₀ two_ne_zero]
        congr 1
        ring
      have hz : (0 : ℝ) < 2 ^ (2 * e) := zpow_pos two_pos _
      obtain ⟨z, hz1, hz2⟩ := F.round_shift (x := x * y) (e := 2 * e)
        (by
          rcases hxy with h | ⟨h, -⟩
          · exact Or.inl h
          · right
            refine ⟨(zpow_le_zpow_right₀ one_le_two (by omega)).trans h, ?_⟩
            rw [abs_mul, abs_of_pos hz]
            refine le_trans (zpow_le_zpow_right₀ one_le_two h1) ?_
            rw [← hpow]
            exact mul_le_mul_of_nonneg_left h hz.le)
        (by
          rcases hxy with h | ⟨-, h⟩
          · rw [h, abs_zero]; exact (zpow_pos two_pos _).le
          · exact h.trans (zpow_le_zpow_right₀ one_le_two (by omega)))
        (by
          rcases hxy with h | ⟨-, h⟩
          · rw [h, mul_zero, abs_zero]; exact (zpow_pos two_pos _).le
          · rw [abs_mul, abs_of_pos hz]
            refine le_trans ?_ (zpow_le_zpow_right₀ one_le_two h3)
            rw [← hpow]
            exact mul_le_mul_of_nonneg_left h hz.le)
      rw [e2]
      change F.round (2 ^ (2 * e) * (x * y)) = XR.scale _ (F.round (x * y))
      rw [hz1, hz2]
      rfl

/-- Multiplying floats by minus one is exact. -/
theorem neg_one_mul_float {R : Rounding ℝ} {v : XR ℝ} (hv : R.Float v) : R.mul (.fin (-1)) v = XR.mul (.fin (-1)) v := by
  unfold mul
  cases v with
  | fin x =>
    change R.rnd (-1 * x) = .fin (-1 * x)
    have h : R.rnd x = .fin x := hv
    rw [neg_one_mul, R.neg, h]
    rfl
  | nan => rfl
  | ninf => simp only [XR.mul, XR.infMul]; split_ifs <;> rfl
  | pinf => simp only [XR.mul, XR.infMul]; split_ifs <;> rfl

theorem lsEntry_shift (L : Lib) (h0 : F.emin ≤ 2 * a) (h1 : F.emin ≤ 2 * (a + e)) (h2 : 2 * b ≤ F.emax)
    (h3 : 2 * (b + e) ≤ F.emax) (metric : String) {d ri rj : XR ℝ} (hd : Regular a b d) (hi : Regular a b ri)
    (hj : Regular a b rj) :
    (F.rounding ℝ).lsEntry L metric (XR.scale (2 ^ e) d) (XR.scale (2 ^ e) ri) (XR.scale (2 ^ e) rj) =
      (F.rounding ℝ).lsEntry L metric d ri rj := by
  have hc : (0 : ℝ) < 2 ^ e := zpow_pos two_pos _
  have hcc : (0 : ℝ) < 2 ^ e * 2 ^ e := mul_pos hc hc
  unfold lsEntry
  have hfl : (F.rounding ℝ).Float (XR.scale (2 ^ e * 2 ^ e) ((F.rounding ℝ).mul d d)) := by
    rw [← mul_shift h0 h1 h2 h3 hd hd]
    exact float_up _
  rw [mul_shift h0 h1 h2 h3 hd hd, mul_shift h0 h1 h2 h3 hi hj, neg_one_mul_float hfl,
    neg_one_mul_float (R := F.rounding ℝ) (v := (F.rounding ℝ).mul d d) (float_up _), LS.neg_one_mul_scale hcc]
  unfold div
  rw [LS.div_scale hcc]

theorem rankVal_regular {n : ℕ} {D : Fin n → Fin n → XR ℝ} (hD : ∀ i j, i ≠ j → Regular a b (D i j)) (metric : String)
    (train : List (Fin n)) (t : Fin train.length) (i : Fin n) :
    Regular a b (LS.rankVal (LS.cols (Np.fillDiagonal D (LS.exclude metric)) train i) t) := by
  obtain ⟨c, hc⟩ := (LS.rankVal_spec (LS.cols (Np.fillDiagonal D (LS.exclude metric)) train i) t).attained
  rw [← hc]
  unfold LS.cols Np.fillDiagonal
  split
  · unfold LS.exclude
    split <;> trivial
  · next h => exact hD _ _ (fun e => h (by rw [e]))

theorem lsResult_shift (L : Lib) (h0 : F.emin ≤ 2 * a) (h1 : F.emin ≤ 2 * (a + e)) (h2 : 2 * b ≤ F.emax)
    (h3 : 2 * (b + e) ≤ F.emax) {n : ℕ} {D : Fin n → Fin n → XR ℝ} (hD : ∀ i j, i ≠ j → Regular a b (D i j))
    (metric : String) (train : List (Fin n)) (t : Fin train.length) :
    (F.rounding ℝ).lsResult L (fun i j => XR.scale (2 ^ e) (D i j)) metric train t =
      (F.rounding ℝ).lsResult L D metric train t := by
  have hc : (0 : ℝ) < 2 ^ e := zpow_pos two_pos _
  unfold lsResult
  apply LS.mirror_congr
  intro i j hij
  rw [LS.fillDiagonal_scale _ D _ (LS.exclude_scale _ metric)]
  have hcols : ∀ i, LS.cols (fun i j => XR.scale (2 ^ e) (Np.fillDiagonal D (LS.exclude metric) i j)) train i
      = fun x => XR.scale (2 ^ e) (LS.cols (Np.fillDiagonal D (LS.exclude metric)) train i x) := fun i => rfl
  simp only [hcols, LS.rankVal_scale hc]
  rw [lsEntry_shift L h0 h1 h2 h3 metric (hD i j hij.ne) (rankVal_regular hD metric train t i)
    (rankVal_regular hD metric train t j)]

theorem lsCore_none (L : Lib) (w : LS.World) {n : ℕ} (hn : 0 < n) (D : Fin n → Fin n → XR ℝ) (k : ℤ) (metric : String)
    (test : Option (List ℤ)) (nJobs : ℤ) (h : Np.wrap (LS.trainInd n test).length (LS.kthOf metric n k) = none) :
    (F.rounding ℝ).lsCore L w D k metric test nJobs = .error .valueError := by
  unfold lsCore
  by_cases h2 : LS.jobs w nJobs > 1
  · simp only [h2, if_true, LS.radiiParallel_none w hn _ _ _ h]
    rfl
  · simp only [h2, if_false, LS.radiiSerial_none w.part _ _ _ h]
    rfl

theorem lsCore_unbound (L : Lib) (w : LS.World) {n : ℕ} (D : Fin n → Fin n → XR ℝ) (k : ℤ) (metric : String)
    (test : Option (List ℤ)) (nJobs : ℤ) (hj : LS.jobs w nJobs < 1) (t : Fin (LS.trainInd n test).length)
    (h : Np.wrap (LS.trainInd n test).length (LS.kthOf metric n k) = some t) :
    (F.rounding ℝ).lsCore L w D k metric test nJobs = .error .unboundLocalError := by
  unfold lsCore
  have h2 : ¬ LS.jobs w nJobs > 1 := by omega
  have h1 : ¬ LS.jobs w nJobs = 1 := by omega
  simp only [h1, h2, if_false, LS.radiiSerial_some w.part _ _ _ t h]
  rfl

/-- **C211.** Local Scaling in floating point does not depend on the unit, if units differ by a power of two: as long as squares of
values neither under- nor overflow in either unit, the results are the same bit by bit, and so are errors; for distances and
similarities, with any approximation of the exponential function, any number of processes. -/
theorem C211 (L : Lib) (h0 : F.emin ≤ 2 * a) (h1 : F.emin ≤ 2 * (a + e)) (h2 : 2 * b ≤ F.emax) (h3 : 2 * (b + e) ≤ F.emax)
    (w w' : LS.World) (hw : w.cpu = w'.cpu) {n : ℕ} (hn : 0 < n) (D : Fin n → Fin n → XR ℝ)
    (hD : ∀ i j, i ≠ j → Regular a b (D i j)) (k : ℤ) (metric : String) (test : Option (List ℤ)) (nJobs : ℤ) :
    (F.rounding ℝ).localScaling L w (.mat false n n (fun i j => XR.mul (.fin (2 ^ e)) (D i j))) k metric test nJobs =
      (F.rounding ℝ).localScaling L w' (.mat false n n D) k metric test nJobs := by
  have hc : (0 : ℝ) < 2 ^ e := zpow_pos two_pos _
  simp only [LS.mul_eq_scale hc]
  have hjobs : LS.jobs w nJobs = LS.jobs w' nJobs := by unfold LS.jobs; rw [hw]
  have hcore : (F.rounding ℝ).lsCore L w (fun i j => XR.scale (2 ^ e) (D i j)) k metric test nJobs =
      (F.rounding ℝ).lsCore L w' D k metric test nJobs := by
    cases hwr : Np.wrap (LS.trainInd n test).length (LS.kthOf metric n k) with
    | none => rw [lsCore_none L w hn _ _ _ _ _ hwr, lsCore_none L w' hn _ _ _ _ _ hwr]
    | some t =>
      by_cases hj : 1 ≤ LS.jobs w nJobs
      · rw [lsCore_ok L w _ _ _ _ _ hj t hwr, lsCore_ok L w' _ _ _ _ _ (hjobs ▸ hj) t hwr,
          lsResult_shift L h0 h1 h2 h3 hD]
      · rw [lsCore_unbound L w _ _ _ _ _ (by omega) t hwr, lsCore_unbound L w' _ _ _ _ _ (by omega) t hwr]
  unfold localScaling
  simp only [PyMat.checkSquare, dif_pos rfl]
  change ((checkValidMetric metric).bind fun _ => _) = ((checkValidMetric metric).bind fun _ => _)
  cases checkValidMetric metric with
  | error e => rfl
  | ok v =>
    change (((F.rounding ℝ).lsCore L w (fun i j => XR.scale (2 ^ e) (D i j)) k metric test nJobs).bind fun M => _) =
      (((F.rounding ℝ).lsCore L w' D k metric test nJobs).bind fun M => _)
    rw [hcore]
end

/-- Correctly rounded exponential function. -/
theorem Lib.rounded_expNear : Lib.rounded.ExpNear := by
  intro t ht
  have h1 : Real.exp (-t) ≤ 1 := Real.exp_le_one_iff.2 (by linarith)
  have h0 := Real.exp_pos (-t)
  obtain ⟨y, hy, y0, y1⟩ := (double.rounding ℝ).unit (x := Real.exp (-t)) h0.le h1
  refine ⟨y, hy, (double.rounding ℝ).idem _ _ hy, ⟨y0, y1⟩, ?_⟩
  have hyn : y = double.nearest (Real.exp (-t)) := by
    have hv' : double.round (Real.exp (-t)) = .fin y := hy
    unfold Ieee.round at hv'
    split_ifs at hv'
    exact (XR.fin.inj hv').symm
  rw [hyn]
  refine (double.abs_nearest_sub _).trans ?_
  have hs : double.spacing (Real.exp (-t)) ≤ -52 := by
    unfold Ieee.spacing
    rw [abs_of_pos h0]
    have : Int.log 2 (Real.exp (-t)) ≤ 0 := by
      have := Int.log_mono_right (b := 2) h0 h1
      simpa using this
    simp only [Ieee.double]
    omega
  have := zpow_le_zpow_right₀ (one_le_two : (1 : ℝ) ≤ 2) hs
  have hp : (0 : ℝ) < 2 ^ double.spacing (Real.exp (-t)) := zpow_pos two_pos _
  exact (div_le_self hp.le one_le_two).trans this

/-- The hypotheses of `C210` and `C211` hold for the points 0, 1 and 3 on a line. -/
theorem line3_within {c : ℝ} (h1 : 1 ≤ c) (h4 : c ≤ 4) (i j : Fin 3) : Within (-200) 200 (c * LS.line3 i j) := by
  by_cases h : LS.line3 i j = 0
  · left; rw [h, mul_zero]
  · have hl : 1 ≤ LS.line3 i j ∧ LS.line3 i j ≤ 4 := by
      fin_cases i <;> fin_cases j <;> first | exact absurd rfl h | norm_num [LS.line3]
    have h0 : (2 : ℝ) ^ (-200 : ℤ) ≤ 1 := zpow_le_one_of_nonpos₀ one_le_two (by norm_num)
    have h16 : (16 : ℝ) ≤ 2 ^ (200 : ℤ) := by
      have : (2 : ℝ) ^ (4 : ℤ) ≤ 2 ^ (200 : ℤ) := zpow_le_zpow_right₀ one_le_two (by norm_num)
      refine le_trans ?_ this
      norm_num
    right
    rw [abs_of_nonneg (by nlinarith)]
    exact ⟨h0.trans (by nlinarith), le_trans (by nlinarith) h16⟩

theorem line3_within' (i j : Fin 3) : Within (-200) 200 (LS.line3 i j) := by
  have := line3_within (c := 1) le_rfl (by norm_num) i j
  rwa [one_mul] at this

example (nJobs : ℤ) (hj : nJobs = -1 ∨ 1 ≤ nJobs) := C210 Lib.rounded Lib.rounded_expNear LS.stdWorld (by norm_num) LS.line3
  LS.line3_symm (fun i j _ => line3_within' i j) 1 le_rfl none nJobs hj _ LS.line3_radii LS.line3_pos

example (nJobs : ℤ) (hj : nJobs = -1 ∨ 1 ≤ nJobs) := C210_unit Lib.rounded Lib.rounded_expNear LS.stdWorld LS.stdWorld
  (by norm_num) (c := 3) (by norm_num) LS.line3 LS.line3_symm (fun i j _ => line3_within' i j)
  (fun i j _ => line3_within (by norm_num) (by norm_num) i j) 1 le_rfl none nJobs nJobs hj hj _ LS.line3_radii LS.line3_pos

example (nJobs : ℤ) := C211 (F := double) (a := -200) (b := 200) (e := 100) Lib.rounded (by decide) (by decide) (by decide)
  (by decide) LS.stdWorld LS.stdWorld rfl (by norm_num) (LS.toXR LS.line3) (fun i j _ => line3_within' i j) 1 "distance" none
  nJobs

end Rounding

end HubToolbox
