import Verif.XRArith
import Mathlib.Data.Int.Log
import Mathlib.Algebra.Order.Floor.Ring
import Mathlib.Algebra.Order.Archimedean.Basic
import Mathlib.Tactic.Linarith
import Mathlib.Tactic.Ring
import Mathlib.Tactic.Positivity
import Mathlib.Tactic.FieldSimp
import Mathlib.Tactic.NormNum
import Mathlib.Data.Rat.Floor

/-!
# Rounding

The other models compute with the exact results of arithmetic operations. Here the results are rounded.
`Rounding` is what the theorems assume of the rounding; `Ieee` is the arithmetic of IEEE-754 (round to nearest, ties
to even, gradual underflow, overflow to infinity) of which the assumptions are proved.

Not modelled: the sign of a zero.
-/

set_option autoImplicit false

namespace HubToolbox

/-- Rounding of the exact result of an operation to a float. -/
structure Rounding (K : Type) [Field K] [LinearOrder K] where
  rnd : K → XR K
  ne_nan : ∀ x, rnd x ≠ .nan
  mono : ∀ x y, x ≤ y → rnd x ≤ rnd y
  zero : rnd 0 = .fin 0
  one : rnd 1 = .fin 1
  neg : ∀ x, rnd (-x) = XR.neg (rnd x)
  idem : ∀ x y, rnd x = .fin y → rnd y = .fin y

namespace Rounding
variable {K : Type} [Field K] [LinearOrder K] (R : Rounding K)

/-- Rounding of a result which may be a special value. -/
def up : XR K → XR K
  | .fin x => R.rnd x
  | a => a

/-- Floating point addition. -/
def add (a b : XR K) : XR K := R.up (XR.add a b)
/-- Floating point subtraction. -/
def sub (a b : XR K) : XR K := R.up (XR.sub a b)
/-- Floating point multiplication. -/
def mul (a b : XR K) : XR K := R.up (XR.mul a b)
/-- Floating point division. -/
def div (a b : XR K) : XR K := R.up (XR.div a b)
/-- Conversion of an integer. -/
def ofNat (n : ℕ) : XR K := R.rnd (n : K)

/-- The values a float can take. -/
def Float (a : XR K) : Prop := R.up a = a

/-- No rounding at all. -/
def exact (K : Type) [Field K] [LinearOrder K] : Rounding K where
  rnd := .fin
  ne_nan _ h := by cases h
  mono _ _ h := h
  zero := rfl
  one := rfl
  neg _ := rfl
  idem _ _ _ := rfl

theorem exact_rnd (x : K) : (exact K).rnd x = .fin x := rfl
@[simp] theorem exact_up (a : XR K) : (exact K).up a = a := by cases a <;> rfl
@[simp] theorem exact_add (a b : XR K) : (exact K).add a b = XR.add a b := exact_up _
@[simp] theorem exact_sub (a b : XR K) : (exact K).sub a b = XR.sub a b := exact_up _
@[simp] theorem exact_mul (a b : XR K) : (exact K).mul a b = XR.mul a b := exact_up _
@[simp] theorem exact_div (a b : XR K) : (exact K).div a b = XR.div a b := exact_up _

variable {R}

theorem up_fin (x : K) : R.up (.fin x) = R.rnd x := rfl

theorem nonneg {x : K} (h : 0 ≤ x) : (.fin 0 : XR K) ≤ R.rnd x := R.zero ▸ R.mono 0 x h

theorem le_one {x : K} (h : x ≤ 1) : R.rnd x ≤ (.fin 1 : XR K) := R.one ▸ R.mono x 1 h

/-- Numbers in the unit interval stay there. -/
theorem unit {x : K} (h0 : 0 ≤ x) (h1 : x ≤ 1) : ∃ y, R.rnd x = .fin y ∧ 0 ≤ y ∧ y ≤ 1 := by
  have a := nonneg (R := R) h0
  have b := le_one (R := R) h1
  cases h : R.rnd x with
  | fin y => rw [h] at a b; exact ⟨y, rfl, a, b⟩
  | ninf => rw [h] at a; simp at a
  | pinf => rw [h] at b; simp at b
  | nan => exact absurd h (R.ne_nan x)

theorem float_up (a : XR K) : R.Float (R.up a) := by
  cases a with
  | fin x =>
    change R.up (R.rnd x) = R.rnd x
    cases h : R.rnd x with
    | fin y => exact R.idem _ _ h
    | _ => rfl
  | _ => rfl

end Rounding

/-- A floating point format: `p` digits, smallest and largest exponent. -/
structure Ieee where
  p : ℕ
  emin : ℤ
  emax : ℤ
  p_pos : 1 < p
  emin_le : emin ≤ 0
  le_emax : 0 ≤ emax

/-- float64. -/
def Ieee.double : Ieee := ⟨53, -1022, 1023, by decide, by decide, by decide⟩
/-- float32. -/
def Ieee.single : Ieee := ⟨24, -126, 127, by decide, by decide, by decide⟩

namespace Ieee

section
variable {K : Type} [Field K] [LinearOrder K] [FloorRing K]

/-- Nearest integer, ties to even. -/
def even (q : K) : ℤ :=
  if Int.fract q < 1 / 2 then ⌊q⌋
  else if 1 / 2 < Int.fract q then ⌊q⌋ + 1
  else if ⌊q⌋ % 2 = 0 then ⌊q⌋ else ⌊q⌋ + 1

variable [IsStrictOrderedRing K]

/-- Exponent of the spacing of the floats around `x`. -/
def spacing (F : Ieee) (x : K) : ℤ := max (Int.log 2 |x|) F.emin - (F.p - 1)

/-- The number of the form `m * 2 ^ spacing x` nearest to `x`. -/
def nearest (F : Ieee) (x : K) : K := even (x / 2 ^ F.spacing x) * 2 ^ F.spacing x

/-- Rounding with overflow. -/
def round (F : Ieee) (x : K) : XR K :=
  if (2 : K) ^ (F.emax + 1) ≤ F.nearest x then .pinf
  else if F.nearest x ≤ -(2 : K) ^ (F.emax + 1) then .ninf
  else .fin (F.nearest x)

/-! ### Nearest integers -/

theorem even_intCast (m : ℤ) : even (m : K) = m := by
  unfold even
  rw [Int.fract_intCast, if_pos (by norm_num), Int.floor_intCast]

theorem floor_le_even (q : K) : ⌊q⌋ ≤ even q := by
  unfold even; split_ifs <;> omega

theorem even_le_floor (q : K) : even q ≤ ⌊q⌋ + 1 := by
  unfold even; split_ifs <;> omega

theorem abs_even_sub (q : K) : |(even q : K) - q| ≤ 1 / 2 := by
  have h := Int.floor_add_fract q
  have h0 := Int.fract_nonneg q
  have h1 := Int.fract_lt_one q
  unfold even
  rw [abs_le]
  split_ifs with a b c
  · constructor <;> linarith
  · push_cast; constructor <;> linarith
  · constructor <;> linarith
  · push_cast; constructor <;> linarith

theorem even_mono {q r : K} (h : q ≤ r) : even q ≤ even r := by
  rcases lt_or_eq_of_le (Int.floor_mono h) with hf | hf
  · have := floor_le_even r
    have := even_le_floor q
    omega
  · have hq := Int.floor_add_fract q
    have hr := Int.floor_add_fract r
    have hfr : Int.fract q ≤ Int.fract r := by
      have : (⌊q⌋ : K) = ⌊r⌋ := by rw [hf]
      linarith
    unfold even
    rw [hf]
    split_ifs <;> first | omega | (exfalso; linarith)

theorem even_neg (q : K) : even (-q) = - even q := by
  rcases eq_or_ne (Int.fract q) 0 with h0 | h0
  · have : q = (⌊q⌋ : K) := by have := Int.floor_add_fract q; linarith
    rw [this, ← Int.cast_neg, even_intCast, even_intCast]
  · have hfr := Int.fract_neg h0
    have hfl : ⌊-q⌋ = -⌊q⌋ - 1 := by
      have h1 := Int.floor_add_fract q
      have h2 := Int.floor_add_fract (-q)
      rw [hfr] at h2
      have : ((⌊-q⌋ : ℤ) : K) = ((-⌊q⌋ - 1 : ℤ) : K) := by push_cast; linarith
      exact_mod_cast this
    unfold even
    rw [hfr, hfl]
    split_ifs <;> first | omega | (exfalso; linarith)

/-! ### Rounding to the nearest float -/

variable (F : Ieee)

theorem two_pos' : (0 : K) < 2 := two_pos

theorem zpow_pos' (e : ℤ) : (0 : K) < 2 ^ e := zpow_pos two_pos e

theorem spacing_neg (x : K) : F.spacing (-x) = F.spacing x := by unfold spacing; rw [abs_neg]

theorem nearest_neg (x : K) : F.nearest (-x) = - F.nearest x := by
  unfold nearest
  rw [spacing_neg, neg_div, even_neg]
  push_cast; ring

theorem nearest_zero : F.nearest (0 : K) = 0 := by
  unfold nearest
  have : even (0 : K) = 0 := by simpa using even_intCast (K := K) 0
  rw [zero_div, this]; simp

/-- `x` is smaller than `2 ^ p` times the spacing. -/
theorem abs_lt_spacing (x : K) : |x| < 2 ^ (F.spacing x + F.p) := by
  have h := Int.lt_zpow_succ_log_self (b := 2) (by norm_num) |x|
  refine lt_of_lt_of_le (by simpa using h) ?_
  apply zpow_le_zpow_right₀ one_le_two
  unfold spacing
  have := le_max_left (Int.log 2 |x|) F.emin
  omega

/-- A number above the subnormal range is at least `2 ^ (p - 1)` times the spacing. -/
theorem le_abs_spacing {x : K} (h0 : x ≠ 0) (h : F.emin < F.spacing x + (F.p - 1)) : 2 ^ (F.spacing x + (F.p - 1)) ≤ |x| := by
  have e : F.spacing x + (F.p - 1) = Int.log 2 |x| := by
    unfold spacing at h ⊢
    rcases le_total (Int.log 2 |x|) F.emin with h' | h'
    · rw [max_eq_right h'] at h; omega
    · rw [max_eq_left h']; omega
  rw [e]
  simpa using Int.zpow_log_le_self (b := 2) (r := |x|) (by norm_num) (abs_pos.2 h0)

theorem even_le {q : K} {m : ℤ} (h : q ≤ m) : even q ≤ m := by
  have := even_mono h
  rwa [even_intCast] at this

theorem le_even {q : K} {m : ℤ} (h : (m : K) ≤ q) : m ≤ even q := by
  have := even_mono h
  rwa [even_intCast] at this

theorem nearest_nonneg {x : K} (h : 0 ≤ x) : 0 ≤ F.nearest x := by
  unfold nearest
  have : (0 : ℤ) ≤ even (x / 2 ^ F.spacing x) := le_even (by
    push_cast; exact div_nonneg h (zpow_pos' _).le)
  exact mul_nonneg (by exact_mod_cast this) (zpow_pos' _).le

theorem nearest_le_top {x : K} : F.nearest x ≤ 2 ^ (F.spacing x + F.p) := by
  unfold nearest
  have hs : (0 : K) < 2 ^ F.spacing x := zpow_pos' _
  have e : (2 : K) ^ (F.spacing x + F.p) = 2 ^ F.p * 2 ^ F.spacing x := by
    rw [zpow_add₀ two_ne_zero, mul_comm, zpow_natCast]
  rw [e]
  apply mul_le_mul_of_nonneg_right _ hs.le
  have : even (x / 2 ^ F.spacing x) ≤ ((2 ^ F.p : ℕ) : ℤ) := even_le (by
    push_cast
    rw [div_le_iff₀ hs, ← e]
    exact ((le_abs_self x).trans_lt (abs_lt_spacing F x)).le)
  exact_mod_cast this

theorem le_nearest {x : K} (hx : 0 < x) (h : F.emin < F.spacing x + (F.p - 1)) :
    2 ^ (F.spacing x + (F.p - 1)) ≤ F.nearest x := by
  have hb := le_abs_spacing F hx.ne' h
  rw [abs_of_pos hx] at hb
  unfold nearest
  have hs : (0 : K) < 2 ^ F.spacing x := zpow_pos' _
  have hp := F.p_pos
  have e : (2 : K) ^ (F.spacing x + (F.p - 1)) = 2 ^ (F.p - 1) * 2 ^ F.spacing x := by
    rw [zpow_add₀ two_ne_zero, mul_comm]
    congr 1
    rw [← zpow_natCast]; congr 1; omega
  rw [e] at hb ⊢
  apply mul_le_mul_of_nonneg_right _ hs.le
  have : ((2 ^ (F.p - 1) : ℕ) : ℤ) ≤ even (x / 2 ^ F.spacing x) := le_even (by
    push_cast
    rw [le_div_iff₀ hs]
    exact hb)
  exact_mod_cast this

theorem spacing_mono {x y : K} (h0 : 0 ≤ x) (hy : x ≤ y) (hx : x ≠ 0) : F.spacing x ≤ F.spacing y := by
  unfold spacing
  rw [abs_of_nonneg h0, abs_of_nonneg (h0.trans hy)]
  have := Int.log_mono_right (b := 2) (lt_of_le_of_ne h0 hx.symm) hy
  have := max_le_max this (le_refl F.emin)
  omega

theorem nearest_mono_nonneg {x y : K} (h0 : 0 ≤ x) (h : x ≤ y) : F.nearest x ≤ F.nearest y := by
  rcases eq_or_ne x 0 with rfl | hx
  · rw [nearest_zero]; exact nearest_nonneg F h
  have hy0 : 0 < y := lt_of_lt_of_le (lt_of_le_of_ne h0 hx.symm) h
  rcases (spacing_mono F h0 h hx).eq_or_lt with e | e
  · unfold nearest
    rw [← e]
    apply mul_le_mul_of_nonneg_right _ (zpow_pos' _).le
    exact_mod_cast even_mono (div_le_div_of_nonneg_right h (zpow_pos' _).le)
  · have h1 := nearest_le_top F (x := x)
    have hm : F.emin ≤ F.spacing x + (F.p - 1) := by
      unfold spacing
      have := le_max_right (Int.log 2 |x|) F.emin
      omega
    have h2 := le_nearest F hy0 (by omega)
    refine h1.trans (le_trans ?_ h2)
    apply zpow_le_zpow_right₀ one_le_two
    omega

theorem nearest_mono {x y : K} (h : x ≤ y) : F.nearest x ≤ F.nearest y := by
  rcases le_total 0 x with hx | hx
  · exact nearest_mono_nonneg F hx h
  · rcases le_total 0 y with hy | hy
    · have a := nearest_nonneg F (neg_nonneg.2 hx)
      rw [nearest_neg] at a
      have b := nearest_nonneg F hy
      linarith
    · have := nearest_mono_nonneg F (neg_nonneg.2 hy) (neg_le_neg h)
      rw [nearest_neg, nearest_neg] at this
      linarith

/-- Numbers with at most `p` digits are not changed. -/
theorem nearest_rep {m t : ℤ} (hm : |m| ≤ 2 ^ F.p) (ht : F.emin ≤ t + (F.p - 1)) :
    F.nearest ((m : K) * 2 ^ t) = m * 2 ^ t := by
  rcases eq_or_ne m 0 with rfl | h0
  · simp [nearest_zero]
  set x : K := (m : K) * 2 ^ t with hx
  have hx0 : x ≠ 0 := mul_ne_zero (by exact_mod_cast h0) (zpow_pos' _).ne'
  have ha : |x| = (|m| : ℤ) * 2 ^ t := by
    rw [hx, abs_mul, abs_of_pos (zpow_pos' (K := K) t)]
    push_cast; rfl
  -- the quotient by the spacing is an integer
  have key : ∃ q : ℤ, x / 2 ^ F.spacing x = q := by
    rcases hm.eq_or_lt with hm | hm
    · have hlog : Int.log 2 |x| = t + F.p := by
        rw [ha, hm]
        push_cast
        have : (2 : K) ^ F.p * 2 ^ t = ((2 : ℕ) : K) ^ (t + (F.p : ℤ)) := by
          push_cast
          rw [zpow_add₀ two_ne_zero, mul_comm, zpow_natCast]
        rw [this, Int.log_zpow (by norm_num)]
      have hs : F.spacing x = t + 1 := by
        unfold spacing
        rw [hlog, max_eq_left (by omega)]; omega
      have hp := F.p_pos
      have hm2 : m = 2 ^ F.p ∨ m = -2 ^ F.p := by
        rcases abs_cases m with ⟨h, _⟩ | ⟨h, _⟩ <;> omega
      have e2 : (2 : K) ^ F.p = 2 ^ (F.p - 1) * 2 := by
        rw [← pow_succ]; congr 1; omega
      rw [hs, hx, zpow_add₀ two_ne_zero, zpow_one]
      rcases hm2 with h | h
      · refine ⟨2 ^ (F.p - 1), ?_⟩
        rw [h]; push_cast; rw [e2]
        have := (zpow_pos' (K := K) t).ne'
        field_simp
      · refine ⟨-2 ^ (F.p - 1), ?_⟩
        rw [h]; push_cast; rw [e2]
        have := (zpow_pos' (K := K) t).ne'
        field_simp
    · have hlog : Int.log 2 |x| ≤ t + (F.p - 1) := by
        have h1 : |x| < ((2 : ℕ) : K) ^ (t + (F.p : ℤ)) := by
          rw [ha]
          push_cast
          rw [zpow_add₀ two_ne_zero, mul_comm, zpow_natCast]
          apply mul_lt_mul_of_pos_left _ (zpow_pos' _)
          exact_mod_cast hm
        have := (Int.lt_zpow_iff_log_lt (b := 2) (by norm_num) (abs_pos.2 hx0)).1 h1
        omega
      have hs : F.spacing x ≤ t := by
        unfold spacing
        have := max_le hlog ht
        omega
      obtain ⟨d, hd⟩ := Int.le.dest hs
      refine ⟨m * 2 ^ d, ?_⟩
      have e : (2 : K) ^ t = 2 ^ F.spacing x * 2 ^ d := by
        conv_lhs => rw [← hd]
        rw [zpow_add₀ two_ne_zero, zpow_natCast]
      rw [div_eq_iff (zpow_pos' _).ne']
      calc x = m * 2 ^ t := hx
        _ = _ := by rw [e]; push_cast; ring
  obtain ⟨q, hq⟩ := key
  unfold nearest
  rw [hq, even_intCast, ← hq, div_mul_cancel₀ _ (zpow_pos' _).ne']

theorem nearest_one : F.nearest (1 : K) = 1 := by
  have h := nearest_rep (K := K) F (m := 1) (t := 0) (by
    have : (1 : ℤ) ≤ 2 ^ F.p := one_le_pow₀ (by norm_num)
    simpa using this) (by have := F.emin_le; have := F.p_pos; omega)
  simpa using h

theorem nearest_nearest (x : K) : F.nearest (F.nearest x) = F.nearest x := by
  have hs : (0 : K) < 2 ^ F.spacing x := zpow_pos' _
  have e : (2 : K) ^ (F.spacing x + F.p) = 2 ^ F.p * 2 ^ F.spacing x := by
    rw [zpow_add₀ two_ne_zero, mul_comm, zpow_natCast]
  have hlt := abs_lt_spacing F x
  rw [e, abs_lt] at hlt
  have h := nearest_rep (K := K) F (m := even (x / 2 ^ F.spacing x)) (t := F.spacing x) (by
    rw [abs_le]
    constructor
    · have : -((2 ^ F.p : ℕ) : ℤ) ≤ even (x / 2 ^ F.spacing x) := le_even (by
        push_cast
        rw [le_div_iff₀ hs]; linarith [hlt.1])
      push_cast at this; exact this
    · have : even (x / 2 ^ F.spacing x) ≤ ((2 ^ F.p : ℕ) : ℤ) := even_le (by
        push_cast
        rw [div_le_iff₀ hs]; exact hlt.2.le)
      push_cast at this; exact this) (by
    unfold spacing
    have := le_max_right (Int.log 2 |x|) F.emin
    omega)
  exact h

/-- The rounding error. -/
theorem abs_nearest_sub (x : K) : |F.nearest x - x| ≤ 2 ^ F.spacing x / 2 := by
  have hs : (0 : K) < 2 ^ F.spacing x := zpow_pos' _
  have : F.nearest x - x = ((even (x / 2 ^ F.spacing x) : K) - x / 2 ^ F.spacing x) * 2 ^ F.spacing x := by
    unfold nearest
    rw [sub_mul, div_mul_cancel₀ _ hs.ne']
  rw [this, abs_mul, abs_of_pos hs]
  have := mul_le_mul_of_nonneg_right (abs_even_sub (x / 2 ^ F.spacing x)) hs.le
  linarith

theorem one_lt_top : (1 : K) < 2 ^ (F.emax + 1) := one_lt_zpow₀ one_lt_two (by have := F.le_emax; omega)

theorem round_of_lt {x : K} (h : |F.nearest x| < 2 ^ (F.emax + 1)) : F.round x = .fin (F.nearest x) := by
  rw [abs_lt] at h
  unfold round
  rw [if_neg (not_le.2 h.2), if_neg (not_le.2 h.1)]

/-- IEEE arithmetic rounds as assumed. -/
def rounding (K : Type) [Field K] [LinearOrder K] [FloorRing K] [IsStrictOrderedRing K] (F : Ieee) : Rounding K where
  rnd := F.round
  ne_nan x := by unfold round; split_ifs <;> simp
  mono x y h := by
    have h := nearest_mono F h
    have := (one_lt_top F (K := K))
    unfold round
    split_ifs <;> first | (simp; done) | (exfalso; linarith) | exact h
  zero := by rw [round_of_lt] <;> rw [nearest_zero]; simpa using zpow_pos' (K := K) _
  one := by rw [round_of_lt] <;> rw [nearest_one]; simpa using one_lt_top (K := K) F
  neg x := by
    unfold round
    rw [nearest_neg]
    have := (one_lt_top F (K := K))
    split_ifs <;> first | rfl | (exfalso; linarith)
  idem x y h := by
    have : y = F.nearest x ∧ |F.nearest x| < 2 ^ (F.emax + 1) := by
      unfold round at h
      split_ifs at h with a b
      exact ⟨by injection h with h; exact h.symm, abs_lt.2 ⟨not_le.1 b, not_le.1 a⟩⟩
    rw [this.1, round_of_lt] <;> rw [nearest_nearest]
    exact this.2

end

end Ieee
end HubToolbox
