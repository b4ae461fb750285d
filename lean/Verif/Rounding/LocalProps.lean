import Verif.Rounding.Local
import Verif.Rounding.Count
import Verif.LS.Props

/-!
# C184 and C185
-/

set_option autoImplicit false

namespace HubToolbox

namespace Ieee

section
variable {K : Type} [Field K] [LinearOrder K] [FloorRing K] [IsStrictOrderedRing K] (F : Ieee)

/-- Numbers below half of the smallest positive float are rounded to zero. -/
theorem round_tiny {x : K} (h0 : 0 ≤ x) (h : x < 2 ^ (F.emin - F.p)) : F.round x = .fin 0 := by
  have hp := F.p_pos
  have hn : F.nearest x = 0 := by
    rcases eq_or_ne x 0 with rfl | hx
    · exact nearest_zero F
    have hpos : 0 < x := lt_of_le_of_ne h0 hx.symm
    have hs : F.spacing x = F.emin - (F.p - 1) := by
      unfold spacing
      rw [max_eq_right]
      rw [abs_of_pos hpos]
      have : x < (2 : ℕ) ^ F.emin := by
        push_cast
        exact h.trans_le (zpow_le_zpow_right₀ one_le_two (by omega))
      exact (Int.lt_zpow_iff_log_lt (b := 2) (by norm_num) hpos).1 this |>.le
    have hq0 : 0 ≤ x / 2 ^ F.spacing x := div_nonneg h0 (zpow_pos' _).le
    have hq1 : x / 2 ^ F.spacing x < 1 / 2 := by
      rw [div_lt_iff₀ (zpow_pos' _), hs]
      refine h.trans_eq ?_
      rw [show F.emin - ((F.p : ℤ) - 1) = (F.emin - F.p) + 1 by ring, zpow_add₀ two_ne_zero, zpow_one]
      ring
    have hf : ⌊x / 2 ^ F.spacing x⌋ = 0 := by
      rw [Int.floor_eq_iff]
      constructor
      · simpa using hq0
      · push_cast; linarith
    have : even (x / 2 ^ F.spacing x) = 0 := by
      unfold even
      rw [if_pos, hf]
      unfold Int.fract
      rw [hf]
      simpa using hq1
    unfold nearest
    rw [this]
    simp
  rw [round_of_lt F, hn]
  rw [hn, abs_zero]
  exact zpow_pos' _

/-- Powers of two in the range are floats. -/
theorem round_zpow {e : ℤ} (h0 : F.emin ≤ e) (h1 : e ≤ F.emax) : F.round ((2 : K) ^ e) = .fin (2 ^ e) := by
  have hp := F.p_pos
  have h := nearest_rep (K := K) F (m := 1) (t := e) (by
    rw [abs_one]; exact one_le_pow₀ (by norm_num)) (by omega)
  simp only [Int.cast_one, one_mul] at h
  rw [round_of_lt F, h]
  rw [h, abs_of_pos (zpow_pos' _)]
  exact zpow_lt_zpow_right₀ one_lt_two (by omega)

/-- Numbers between powers of two are rounded to numbers between them. -/
theorem round_between {x : K} {a b : ℤ} (ha : F.emin ≤ a) (hb : b ≤ F.emax) (h0 : 2 ^ a ≤ x) (h1 : x ≤ 2 ^ b) :
    ∃ y, F.round x = .fin y ∧ 2 ^ a ≤ y ∧ y ≤ 2 ^ b := by
  have hab : a ≤ b := (zpow_le_zpow_iff_right₀ (one_lt_two (α := K))).1 (h0.trans h1)
  have l := (F.rounding K).mono _ _ h0
  have u := (F.rounding K).mono _ _ h1
  change F.round _ ≤ F.round _ at l
  change F.round _ ≤ F.round _ at u
  rw [round_zpow F ha (hab.trans hb)] at l
  rw [round_zpow F (ha.trans hab) hb] at u
  cases h : F.round x with
  | fin y => rw [h] at l u; exact ⟨y, rfl, l, u⟩
  | ninf => rw [h] at l; simp at l
  | pinf => rw [h] at u; simp at u
  | nan => exact absurd h ((F.rounding K).ne_nan x)

end

end Ieee

namespace Rounding

open HubToolbox

/-- Row entries are no less than zero when the matrix is. -/
theorem rankVal_nonneg {n : ℕ} {D : Fin n → Fin n → XR ℝ} (hD : ∀ i j, i ≠ j → .fin 0 ≤ D i j) {train : List (Fin n)}
    (i : Fin n) (t : Fin train.length) : .fin 0 ≤ LS.rankVal (LS.cols (Np.fillDiagonal D .pinf) train i) t := by
  obtain ⟨c, hc⟩ := (LS.rankVal_spec (LS.cols (Np.fillDiagonal D .pinf) train i) t).attained
  rw [← hc]
  unfold LS.cols Np.fillDiagonal
  split
  · simp
  · next h => exact hD _ _ (fun e => h (by rw [e]))

theorem lsResult_range {R : Rounding ℝ} {L : Lib} (hL : L.Ok) {n : ℕ} {D : Fin n → Fin n → XR ℝ}
    (hD : ∀ i j, i ≠ j → .fin 0 ≤ D i j) (train : List (Fin n)) (t : Fin train.length) (i j : Fin n) :
    R.lsResult L D "distance" train t i j = .nan ∨
      ∃ y, R.lsResult L D "distance" train t i j = .fin y ∧ 0 ≤ y ∧ y ≤ 1 := by
  have key : ∀ a b, a ≠ b → ∀ e, e = R.lsEntry L "distance" (D a b)
      (LS.rankVal (LS.cols (Np.fillDiagonal D .pinf) train a) t)
      (LS.rankVal (LS.cols (Np.fillDiagonal D .pinf) train b) t) →
      R.up e = .nan ∨ ∃ y, R.up e = .fin y ∧ 0 ≤ y ∧ y ≤ 1 := by
    rintro a b hab e rfl
    rcases lsEntry_range (R := R) hL (hD a b hab) (rankVal_nonneg hD a t) (rankVal_nonneg hD b t) with h | ⟨y, h, h0, h1⟩
    · left; rw [h]; rfl
    · right; rw [h]; exact unit h0 h1
  unfold lsResult LS.mirror
  rcases lt_trichotomy i j with h | h | h
  · rw [if_neg h.ne, if_pos h]
    exact key i j h.ne _ rfl
  · rw [if_pos h]
    right
    exact ⟨0, rfl, le_rfl, zero_le_one⟩
  · rw [if_neg h.ne', if_neg h.not_gt]
    exact key j i h.ne _ rfl

/-- **C184** (validity). Whatever the rounding: Local Scaling of non-negative distances (possibly infinite, possibly not
symmetric) is a symmetric matrix with zero diagonal whose entries are `nan` or numbers from zero to one. -/
theorem C184_valid (R : Rounding ℝ) (L : Lib) (hL : L.Ok) (w : LS.World) {n : ℕ} (D : Fin n → Fin n → XR ℝ)
    (hD : ∀ i j, i ≠ j → .fin 0 ≤ D i j) (k : ℤ) (test : Option (List ℤ)) (nJobs : ℤ) (M : Fin n → Fin n → XR ℝ)
    (h : R.localScaling L w (.mat false n n D) k "distance" test nJobs = .ok ⟨n, M⟩) :
    (∀ i j, M i j = M j i) ∧ (∀ i, M i i = .fin 0) ∧
      ∀ i j, M i j = .nan ∨ ∃ y, M i j = .fin y ∧ 0 ≤ y ∧ y ≤ 1 := by
  rcases Nat.eq_zero_or_pos n with rfl | hn
  · exact ⟨fun i => i.elim0, fun i => i.elim0, fun i => i.elim0⟩
  rw [localScaling_dense L w D k _ (Or.inl rfl)] at h
  cases hc : R.lsCore L w D k "distance" test nJobs with
  | error e => rw [hc] at h; cases h
  | ok M' =>
    rw [hc] at h
    have hM : M' = M := by
      have := Except.ok.inj h
      simpa using this
    subst hM
    obtain ⟨t, rfl⟩ := lsCore_inv hn hc
    refine ⟨fun i j => LS.mirror_symm _ _ i j, fun i => ?_, fun i j => lsResult_range hL hD _ t i j⟩
    unfold lsResult LS.mirror
    rw [if_pos rfl]
    rfl

theorem mul_fin {R : Rounding ℝ} (x y : ℝ) : R.mul (.fin x) (.fin y) = R.rnd (x * y) := rfl

/-- The product of two distances in the range neither vanishes nor overflows. -/
theorem mul_between {F : Ieee} {a b : ℤ} (ha : F.emin ≤ 2 * a) (hb : 2 * b ≤ F.emax) {x y : ℝ} (hx : 2 ^ a ≤ x)
    (hx' : x ≤ 2 ^ b) (hy : 2 ^ a ≤ y) (hy' : y ≤ 2 ^ b) :
    ∃ z : ℝ, (F.rounding ℝ).mul (.fin x) (.fin y) = .fin z ∧ 0 < z := by
  have pa : (0 : ℝ) < 2 ^ a := zpow_pos two_pos _
  have l : (2 : ℝ) ^ (2 * a) ≤ x * y := by
    rw [two_mul, zpow_add₀ two_ne_zero]
    exact mul_le_mul hx hy pa.le (pa.le.trans hx)
  have u : x * y ≤ (2 : ℝ) ^ (2 * b) := by
    rw [two_mul, zpow_add₀ two_ne_zero]
    exact mul_le_mul hx' hy' (pa.le.trans hy) (zpow_pos two_pos _).le
  obtain ⟨z, hz, h, _⟩ := Ieee.round_between F ha hb l u
  exact ⟨z, hz, (zpow_pos two_pos _).trans_le h⟩

/-- **C184** (numbers). If all distances between different points lie between `2^a` and `2^b`, and squares of such
distances neither underflow nor overflow, then all entries are numbers from zero to one. -/
theorem C184_regular_partial (F : Ieee) (L : Lib) (hL : L.Ok) (w : LS.World) {n : ℕ} (x : Fin n → Fin n → ℝ) {a b : ℤ}
    (ha : F.emin ≤ 2 * a) (hb : 2 * b ≤ F.emax) (hx : ∀ i j, i ≠ j → 2 ^ a ≤ x i j ∧ x i j ≤ 2 ^ b) (k : ℤ)
    (test : Option (List ℤ)) (nJobs : ℤ) (M : Fin n → Fin n → XR ℝ)
    (h : (F.rounding ℝ).localScaling L w (.mat false n n (LS.toXR x)) k "distance" test nJobs = .ok ⟨n, M⟩) (i j : Fin n) :
    ∃ y, M i j = .fin y ∧ 0 ≤ y ∧ y ≤ 1 := by
  have hn : 0 < n := i.pos
  have hD : ∀ i j, i ≠ j → XR.fin 0 ≤ LS.toXR x i j := by
    intro i j hij
    have : (0 : ℝ) ≤ x i j := (zpow_pos two_pos _).le.trans (hx i j hij).1
    simpa [LS.toXR] using this
  obtain ⟨-, -, hr⟩ := C184_valid (F.rounding ℝ) L hL w _ hD k test nJobs M h
  rcases hr i j with hnan | h'
  swap
  · exact h'
  exfalso
  rw [localScaling_dense L w _ k _ (Or.inl rfl)] at h
  cases hc : (F.rounding ℝ).lsCore L w (LS.toXR x) k "distance" test nJobs with
  | error e => rw [hc] at h; cases h
  | ok M' =>
    rw [hc] at h
    have hM : M' = M := by
      have := Except.ok.inj h
      simpa using this
    subst hM
    obtain ⟨t, rfl⟩ := lsCore_inv hn hc
    have rad : ∀ i, LS.rankVal (LS.cols (Np.fillDiagonal (LS.toXR x) .pinf) (LS.trainInd n test) i) t = .pinf ∨
        ∃ r, LS.rankVal (LS.cols (Np.fillDiagonal (LS.toXR x) .pinf) (LS.trainInd n test) i) t = .fin r ∧
          2 ^ a ≤ r ∧ r ≤ 2 ^ b := by
      intro i
      obtain ⟨c, hc⟩ := (LS.rankVal_spec (LS.cols (Np.fillDiagonal (LS.toXR x) .pinf) (LS.trainInd n test) i) t).attained
      rw [← hc]
      unfold LS.cols Np.fillDiagonal
      split
      · left; rfl
      · next h => right; exact ⟨_, rfl, hx _ _ (fun e => h (by rw [e]))⟩
    have key : ∀ a' b', a' ≠ b' → ∀ e, e = (F.rounding ℝ).lsEntry L "distance" (LS.toXR x a' b')
        (LS.rankVal (LS.cols (Np.fillDiagonal (LS.toXR x) .pinf) (LS.trainInd n test) a') t)
        (LS.rankVal (LS.cols (Np.fillDiagonal (LS.toXR x) .pinf) (LS.trainInd n test) b') t) →
        (F.rounding ℝ).up e ≠ .nan := by
      rintro i j hij e rfl
      obtain ⟨z, hz, hz0⟩ := mul_between ha hb (hx i j hij).1 (hx i j hij).2 (hx i j hij).1 (hx i j hij).2
      have h1 : ∃ u : ℝ, (F.rounding ℝ).mul (.fin (-1)) (.fin z) = .fin u ∧ u ≤ 0 ∨
          (F.rounding ℝ).mul (.fin (-1)) (.fin z) = .ninf := by
        have e : (F.rounding ℝ).mul (.fin (-1)) (.fin z) = .fin (-z) := by
          have hz' : (F.rounding ℝ).rnd (x i j * x i j) = .fin z := hz
          rw [mul_fin, neg_one_mul, (F.rounding ℝ).neg, (F.rounding ℝ).idem _ _ hz']
          rfl
        exact ⟨-z, Or.inl ⟨e, by linarith⟩⟩
      have h2 : (F.rounding ℝ).mul
            (LS.rankVal (LS.cols (Np.fillDiagonal (LS.toXR x) .pinf) (LS.trainInd n test) i) t)
            (LS.rankVal (LS.cols (Np.fillDiagonal (LS.toXR x) .pinf) (LS.trainInd n test) j) t) = .pinf ∨
          ∃ v : ℝ, (F.rounding ℝ).mul
            (LS.rankVal (LS.cols (Np.fillDiagonal (LS.toXR x) .pinf) (LS.trainInd n test) i) t)
            (LS.rankVal (LS.cols (Np.fillDiagonal (LS.toXR x) .pinf) (LS.trainInd n test) j) t) = .fin v ∧ 0 < v := by
        have pa : (0 : ℝ) < 2 ^ a := zpow_pos two_pos _
        rcases rad i with hi | ⟨r, hi, r0, r1⟩ <;> rcases rad j with hj | ⟨s, hj, s0, s1⟩ <;> rw [hi, hj]
        · left; rfl
        · left
          simp [mul, XR.mul, XR.infMul, up, (pa.trans_le s0), (pa.trans_le s0).ne']
        · left
          simp [mul, XR.mul, XR.infMul, up, (pa.trans_le r0), (pa.trans_le r0).ne']
        · right
          exact mul_between ha hb r0 r1 s0 s1
      have hq : (F.rounding ℝ).div ((F.rounding ℝ).mul (.fin (-1)) ((F.rounding ℝ).mul (LS.toXR x i j) (LS.toXR x i j)))
          ((F.rounding ℝ).mul
            (LS.rankVal (LS.cols (Np.fillDiagonal (LS.toXR x) .pinf) (LS.trainInd n test) i) t)
            (LS.rankVal (LS.cols (Np.fillDiagonal (LS.toXR x) .pinf) (LS.trainInd n test) j) t)) ≤ .fin 0 := by
        have hz : (F.rounding ℝ).mul (LS.toXR x i j) (LS.toXR x i j) = .fin z := hz
        rw [hz]
        obtain ⟨u, ⟨hu, u0⟩ | hu⟩ := h1 <;> rw [hu] <;> rcases h2 with h2 | ⟨v, h2, v0⟩ <;> rw [h2] <;> apply up_nonpos
        · simp [XR.div]
        · simp only [XR.div, if_neg v0.ne']
          simpa using div_nonpos_of_nonpos_of_nonneg u0 v0.le
        · exfalso
          have hz' : (F.rounding ℝ).rnd (x i j * x i j) = .fin z := hz
          rw [mul_fin, neg_one_mul, (F.rounding ℝ).neg, (F.rounding ℝ).idem _ _ hz'] at hu
          cases hu
        · simp [XR.div, v0.le]
      obtain ⟨y, hy, y0, y1⟩ := hL.exp_nonpos _ hq
      unfold lsEntry
      simp only [show ("distance" : String) ≠ "similarity" by decide, if_false]
      rw [hy]
      obtain ⟨z, hz, z0, z1⟩ := one_sub_unit (R := F.rounding ℝ) y0 y1
      rw [hz]
      exact (F.rounding ℝ).ne_nan z
    unfold lsResult LS.mirror at hnan
    rcases lt_trichotomy i j with h | h | h
    · rw [if_neg h.ne, if_pos h] at hnan
      exact key i j h.ne _ rfl hnan
    · rw [if_pos h] at hnan
      cases hnan
    · rw [if_neg h.ne', if_neg h.not_gt] at hnan
      exact key j i h.ne _ rfl hnan

/-- Three points with the same distance from each other. -/
def tri (x : ℝ) : Fin 3 → Fin 3 → XR ℝ := fun i j => if i = j then .fin 0 else .fin x

theorem tri_rank (x : ℝ) (i : Fin 3) (t : Fin (LS.trainInd 3 none).length) (ht : t.val = 0) :
    LS.rankVal (LS.cols (Np.fillDiagonal (tri x) .pinf) (LS.trainInd 3 none) i) t = .fin x := by
  have hv : ∀ c, LS.cols (Np.fillDiagonal (tri x) .pinf) (LS.trainInd 3 none) i c = .fin x ∨
      LS.cols (Np.fillDiagonal (tri x) .pinf) (LS.trainInd 3 none) i c = .pinf := by
    intro c
    unfold LS.cols Np.fillDiagonal tri
    split
    · right; rfl
    · next h => left; rw [if_neg (fun e => h (by rw [e]))]
  have hr := LS.rankVal_spec (LS.cols (Np.fillDiagonal (tri x) .pinf) (LS.trainInd 3 none) i) t
  obtain ⟨c, hc⟩ := hr.attained
  rcases hv c with h | h
  · rw [← hc, h]
  · exfalso
    have hb := hr.below
    rw [← hc, h, ht, Nat.le_zero, Finset.card_eq_zero] at hb
    have hj : ∃ j : Fin 3, j ≠ i := by
      fin_cases i
      · exact ⟨1, by decide⟩
      · exact ⟨0, by decide⟩
      · exact ⟨0, by decide⟩
    obtain ⟨j, hj⟩ := hj
    obtain ⟨c', hc'⟩ := List.get_of_mem (show j ∈ LS.trainInd 3 none by simp [LS.trainInd])
    have : c' ∈ Finset.univ.filter (fun c => LS.cols (Np.fillDiagonal (tri x) .pinf) (LS.trainInd 3 none) i c < .pinf) := by
      rw [Finset.mem_filter]
      refine ⟨Finset.mem_univ _, ?_⟩
      unfold LS.cols Np.fillDiagonal tri
      rw [hc', if_neg (fun e => hj (Fin.ext e.symm)), if_neg hj.symm]
      simp
    rw [hb] at this
    simp at this

theorem double_tiny : Ieee.double.round ((2 : ℝ) ^ (-600 : ℤ) * 2 ^ (-600 : ℤ)) = .fin 0 := by
  apply Ieee.round_tiny
  · positivity
  · rw [← zpow_add₀ two_ne_zero]
    apply zpow_lt_zpow_right₀ one_lt_two
    norm_num [Ieee.double]

/-- **C184** (violated). Three points at distance `2^-600` from each other, in float64: exact arithmetic yields `1 - 1/e`
for every pair of points, the code yields `nan`, because both the squared distance and the product of the radii
are rounded to zero. -/
theorem C184_violated (L : Lib) (hL : L.Ok) (w : LS.World) (nJobs : ℤ) (hj : nJobs = -1 ∨ 1 ≤ nJobs) :
    (∃ M, LS.localScaling w (.mat false 3 3 (tri (2 ^ (-600 : ℤ)))) 1 "distance" none nJobs = .ok ⟨3, M⟩ ∧
      ∀ i j, i ≠ j → M i j = .fin (1 - Real.exp (-1))) ∧
    ∃ M, (Ieee.double.rounding ℝ).localScaling L w (.mat false 3 3 (tri (2 ^ (-600 : ℤ)))) 1 "distance" none nJobs =
        .ok ⟨3, M⟩ ∧ ∀ i j, i ≠ j → M i j = .nan := by
  have hlen : (LS.trainInd 3 none).length = 3 := by decide
  have hw : Np.wrap (LS.trainInd 3 none).length (LS.kthOf "distance" 3 1) = some ⟨0, by decide⟩ := by decide
  have hoff : ∀ i j : Fin 3, i ≠ j → tri (2 ^ (-600 : ℤ)) i j = .fin (2 ^ (-600 : ℤ)) := fun i j h => if_neg h
  have hpos : (0 : ℝ) < 2 ^ (-600 : ℤ) := zpow_pos two_pos _
  constructor
  · rw [LS.localScaling_dense w _ _ _ (Or.inl rfl), LS.core_ok w _ _ _ _ _ (LS.jobs_pos w nJobs hj) _ hw]
    refine ⟨_, rfl, ?_⟩
    have key : ∀ i j, i ≠ j → LS.entry "distance" (tri (2 ^ (-600 : ℤ)) i j)
        (LS.rankVal (LS.cols (Np.fillDiagonal (tri (2 ^ (-600 : ℤ))) (LS.exclude "distance")) (LS.trainInd 3 none) i)
          ⟨0, by decide⟩)
        (LS.rankVal (LS.cols (Np.fillDiagonal (tri (2 ^ (-600 : ℤ))) (LS.exclude "distance")) (LS.trainInd 3 none) j)
          ⟨0, by decide⟩) = .fin (1 - Real.exp (-1)) := by
      intro i j hij
      rw [show LS.exclude "distance" = .pinf from rfl, tri_rank _ _ _ rfl, tri_rank _ _ _ rfl, hoff i j hij]
      have hne : ((2 : ℝ) ^ (-600 : ℤ) * 2 ^ (-600 : ℤ)) ≠ 0 := by positivity
      unfold LS.entry
      simp only [show ("distance" : String) ≠ "similarity" by decide, if_false, XR.mul, XR.div, if_neg hne]
      rw [neg_one_mul, neg_div, div_self hne]
      simp only [XR.exp, XR.sub, XR.neg, XR.add]
      rw [sub_eq_add_neg]
    intro i j hij
    unfold LS.result LS.mirror
    rw [if_neg hij]
    split
    · exact key i j hij
    · exact key j i hij.symm
  · rw [localScaling_dense L w _ _ _ (Or.inl rfl), lsCore_ok L w _ _ _ _ _ (LS.jobs_pos w nJobs hj) _ hw]
    refine ⟨_, rfl, ?_⟩
    have key : ∀ i j, i ≠ j → (Ieee.double.rounding ℝ).up ((Ieee.double.rounding ℝ).lsEntry L "distance"
        (tri (2 ^ (-600 : ℤ)) i j)
        (LS.rankVal (LS.cols (Np.fillDiagonal (tri (2 ^ (-600 : ℤ))) (LS.exclude "distance")) (LS.trainInd 3 none) i)
          ⟨0, by decide⟩)
        (LS.rankVal (LS.cols (Np.fillDiagonal (tri (2 ^ (-600 : ℤ))) (LS.exclude "distance")) (LS.trainInd 3 none) j)
          ⟨0, by decide⟩)) = .nan := by
      intro i j hij
      rw [show LS.exclude "distance" = .pinf from rfl, tri_rank _ _ _ rfl, tri_rank _ _ _ rfl, hoff i j hij]
      have hm : (Ieee.double.rounding ℝ).mul (.fin (2 ^ (-600 : ℤ))) (.fin (2 ^ (-600 : ℤ))) = .fin 0 := double_tiny
      unfold lsEntry
      simp only [show ("distance" : String) ≠ "similarity" by decide, if_false]
      rw [hm, mul_fin, mul_zero, (Ieee.double.rounding ℝ).zero]
      have hd : (Ieee.double.rounding ℝ).div (.fin 0) (.fin 0) = .nan := by
        simp [div, XR.div, XR.infMul, up]
      rw [hd, hL.exp_nan]
      rfl
    intro i j hij
    unfold lsResult LS.mirror
    rw [if_neg hij]
    split
    · exact key i j hij
    · exact key j i hij.symm

/-- With exact arithmetic and true functions the model is the one of `Verif/LS/Model.lean`. -/
theorem localScaling_exact (w : LS.World) (D : PyMat (XR ℝ)) (k : ℤ) (metric : String) (test : Option (List ℤ)) (nJobs : ℤ) :
    (exact ℝ).localScaling Lib.real w D k metric test nJobs = LS.localScaling w D k metric test nJobs := by
  have hrow : ∀ {n : ℕ} (D : Fin n → Fin n → XR ℝ) r i j,
      (exact ℝ).lsRow Lib.real metric D r i j = LS.tmpRow metric D r i j := by
    intro n D r i j
    unfold lsRow LS.tmpRow lsEntry LS.entry
    simp [Lib.real]
  have hcore : ∀ {n : ℕ} (D : Fin n → Fin n → XR ℝ),
      (exact ℝ).lsCore Lib.real w D k metric test nJobs = LS.core w D k metric test nJobs := by
    intro n D
    unfold lsCore LS.core lsSerial LS.secSerial lsParallel LS.secParallel lsWrites LS.secWrites LS.addT
    simp only [hrow, exact_up, exact_add]
  unfold localScaling LS.localScaling
  simp only [hcore]

/-! ### NICDM -/

/-- **C185** (validity). Whatever the rounding and the order of additions: NICDM of non-negative distances is a symmetric
matrix with zero diagonal whose entries are `nan`, infinite or non-negative numbers. -/
theorem C185_valid (R : Rounding ℝ) (L : Lib) (hL : L.Ok) (w : LS.World) {n : ℕ} (D : Fin n → Fin n → XR ℝ)
    (hD : ∀ i j, i ≠ j → .fin 0 ≤ D i j) (k : ℕ) (test : Option (List ℤ)) (nJobs : ℤ) (M : Fin n → Fin n → XR ℝ)
    (h : R.nicdm L w (.mat false n n D) k "distance" test nJobs = .ok ⟨n, M⟩) :
    (∀ i j, M i j = M j i) ∧ (∀ i, M i i = .fin 0) ∧
      ∀ i j, M i j = .nan ∨ M i j = .pinf ∨ ∃ y, M i j = .fin y ∧ 0 ≤ y := by
  rcases Nat.eq_zero_or_pos n with rfl | hn
  · exact ⟨fun i => i.elim0, fun i => i.elim0, fun i => i.elim0⟩
  rw [nicdm_dense L w D k] at h
  cases hc : R.nicdmCore L w D k test nJobs with
  | error e => rw [hc] at h; cases h
  | ok M' =>
    rw [hc] at h
    have hM : M' = M := by
      have := Except.ok.inj h
      simpa using this
    subst hM
    obtain ⟨hk, rfl⟩ := nicdmCore_inv hn hc
    refine ⟨fun i j => LS.mirror_symm _ _ i j, fun i => ?_, fun i j => ?_⟩
    · unfold nicdmResult LS.mirror
      rw [if_pos rfl]
    · have hge : XR.fin 0 ≤ R.nicdmResult L D (LS.trainInd n test) k hk i j := by
        unfold nicdmResult LS.mirror
        rcases lt_trichotomy i j with h | h | h
        · rw [if_neg h.ne, if_pos h]
          exact nicdmEntry_nonneg hL (hL.exp_nonneg _) (hD i j h.ne)
        · rw [if_pos h]
        · rw [if_neg h.ne', if_neg h.not_gt]
          exact nicdmEntry_nonneg hL (hL.exp_nonneg _) (hD j i h.ne)
      revert hge
      generalize R.nicdmResult L D (LS.trainInd n test) k hk i j = v
      intro hge
      cases v with
      | fin y => right; right; exact ⟨y, rfl, by simpa using hge⟩
      | pinf => right; left; rfl
      | nan => left; rfl
      | ninf => simp at hge

theorem tri_radius {R : Rounding ℝ} {L : Lib} (hL : L.Ok) {x : ℝ} (hx : R.rnd x = .fin x)
    (h : 1 ≤ (LS.trainInd 3 none).length) (i : Fin 3) : R.radii L (tri x) (LS.trainInd 3 none) 1 h i = .fin x := by
  unfold radii meanRank
  rw [show (List.ofFn fun c : Fin 1 => LS.rankVal (LS.cols (Np.fillDiagonal (tri x) .pinf) (LS.trainInd 3 none) i)
      ⟨c.val, lt_of_lt_of_le c.isLt h⟩) = [.fin x] by
    rw [List.ofFn_succ, List.ofFn_zero, tri_rank _ _ _ rfl], hL.sum_one]
  have : R.ofNat 1 = .fin 1 := by unfold ofNat; rw [Nat.cast_one, R.one]
  rw [this]
  simp only [div, XR.div, if_neg one_ne_zero, div_one, up]
  exact hx

/-- **C185** (violated). Three points at distance `2^-600` from each other, in float64: exact arithmetic returns the
distances, no pair of points has a number as secondary distance in the code, because the product of the radii is
rounded to zero. -/
theorem C185_violated (L : Lib) (hL : L.Ok) (w : LS.World) (nJobs : ℤ) :
    (∃ M, LS.nicdm w (.mat false 3 3 (tri (2 ^ (-600 : ℤ)))) 1 "distance" none nJobs = .ok ⟨3, M⟩ ∧
      ∀ i j, i ≠ j → M i j = .fin (2 ^ (-600 : ℤ))) ∧
    ∃ M, (Ieee.double.rounding ℝ).nicdm L w (.mat false 3 3 (tri (2 ^ (-600 : ℤ)))) 1 "distance" none nJobs =
        .ok ⟨3, M⟩ ∧ ∀ i j, i ≠ j → ∀ y, M i j ≠ .fin y := by
  have hoff : ∀ i j : Fin 3, i ≠ j → tri (2 ^ (-600 : ℤ)) i j = .fin (2 ^ (-600 : ℤ)) := fun i j h => if_neg h
  have hpos : (0 : ℝ) < 2 ^ (-600 : ℤ) := zpow_pos two_pos _
  have hlen : 1 ≤ (LS.trainInd 3 none).length := by decide
  constructor
  · rw [LS.nicdm_dense w, LS.nicdmCore_ok w _ _ _ _ hlen]
    refine ⟨_, rfl, ?_⟩
    have hr : LS.radii (tri (2 ^ (-600 : ℤ))) (LS.trainInd 3 none) 1 hlen = fun _ => .fin (2 ^ (-600 : ℤ)) := by
      funext i
      unfold LS.radii LS.meanRank XR.mean XR.sum
      simp only [List.finRange_succ, List.finRange_zero, List.map_nil, List.foldl_cons, List.foldl_nil]
      rw [tri_rank _ _ _ rfl]
      simp [XR.add, XR.div]
    have key : ∀ i j, i ≠ j → LS.nicdmEntry (LS.geomean fun _ : Fin 3 => .fin (2 ^ (-600 : ℤ)))
        (tri (2 ^ (-600 : ℤ)) i j) (.fin (2 ^ (-600 : ℤ))) (.fin (2 ^ (-600 : ℤ))) = .fin (2 ^ (-600 : ℤ)) := by
      intro i j hij
      rw [hoff i j hij, LS.geomean_fin (by norm_num) _ (fun _ => hpos), LS.nicdmEntry_fin _ _ _ _ hpos hpos]
      congr 1
      rw [Spec.geometricMean, Spec.nicdm]
      simp only [Finset.prod_const, Finset.card_univ, Fintype.card_fin]
      rw [← Real.rpow_natCast, ← Real.rpow_mul hpos.le]
      rw [show ((3 : ℕ) : ℝ) * (1 / ((3 : ℕ) : ℝ)) = 1 by norm_num, Real.rpow_one, Real.sqrt_mul_self hpos.le]
      field_simp
    intro i j hij
    unfold LS.nicdmResult LS.mirror
    rw [hr, if_neg hij]
    split
    · exact key i j hij
    · exact key j i hij.symm
  · rw [nicdm_dense L w, nicdmCore_ok L w _ _ _ _ hlen]
    refine ⟨_, rfl, ?_⟩
    have hx : (Ieee.double.rounding ℝ).rnd ((2 : ℝ) ^ (-600 : ℤ)) = .fin (2 ^ (-600 : ℤ)) :=
      Ieee.round_zpow _ (by norm_num [Ieee.double]) (by norm_num [Ieee.double])
    have key : ∀ g i j, i ≠ j → ∀ y, (Ieee.double.rounding ℝ).nicdmEntry L g (tri (2 ^ (-600 : ℤ)) i j)
        (.fin (2 ^ (-600 : ℤ))) (.fin (2 ^ (-600 : ℤ))) ≠ .fin y := by
      intro g i j hij y
      have hm : (Ieee.double.rounding ℝ).mul (.fin (2 ^ (-600 : ℤ))) (.fin (2 ^ (-600 : ℤ))) = .fin 0 := double_tiny
      unfold nicdmEntry
      rw [hm, hL.sqrt_zero]
      cases (Ieee.double.rounding ℝ).mul g (tri (2 ^ (-600 : ℤ)) i j) with
      | fin z =>
        simp only [div, XR.div, if_true, XR.infMul]
        split_ifs <;> simp [up]
      | _ => simp [div, XR.div, up]
    intro i j hij y
    unfold nicdmResult LS.mirror
    rw [if_neg hij]
    simp only [tri_radius hL hx]
    split
    · exact key _ i j hij y
    · exact key _ j i hij.symm y

/-- With exact arithmetic and true functions the model is the one of `Verif/LS/Model.lean`. -/
theorem nicdm_exact (w : LS.World) (D : PyMat (XR ℝ)) (k : ℕ) (metric : String) (test : Option (List ℤ)) (nJobs : ℤ) :
    (exact ℝ).nicdm Lib.real w D k metric test nJobs = LS.nicdm w D k metric test nJobs := by
  have hsum : ∀ {k : ℕ} (f : Fin k → XR ℝ), Lib.real.sum (List.ofFn f) = XR.sum f := by
    intro k f
    unfold Lib.real XR.sum
    simp only
    rw [List.ofFn_eq_map, List.foldl_map]
  have hof : ∀ k : ℕ, (exact ℝ).ofNat k = .fin (k : ℝ) := fun k => rfl
  have hrad : ∀ (o : ArgPart (XR ℝ)) {m : ℕ} (d : Fin m → XR ℝ) k,
      (exact ℝ).meanRadius Lib.real o d k = LS.meanRadius o d k := by
    intro o m d k
    unfold meanRadius LS.meanRadius XR.mean
    simp only [hsum, exact_div, hof]
  have hgeo : ∀ {n : ℕ} (r : Fin n → XR ℝ), (exact ℝ).geomean Lib.real r = LS.geomean r := by
    intro n r
    unfold geomean LS.geomean
    simp only [hsum, exact_div, hof]
    rfl
  have hent : ∀ g d ri rj, (exact ℝ).nicdmEntry Lib.real g d ri rj = LS.nicdmEntry g d ri rj := by
    intro g d ri rj
    unfold nicdmEntry LS.nicdmEntry
    simp only [exact_div, exact_mul]
    rfl
  have hcore : ∀ {n : ℕ} (D : Fin n → Fin n → XR ℝ),
      (exact ℝ).nicdmCore Lib.real w D k test nJobs = LS.nicdmCore w D k test nJobs := by
    intro n D
    unfold nicdmCore LS.nicdmCore meanRadiiSerial LS.meanRadiiSerial meanRadiiParallel LS.meanRadiiParallel nicdmSerial
      LS.nicdmSerial nicdmParallel LS.nicdmParallel nicdmWrites LS.nicdmWrites LS.addT
    simp only [hrad, hgeo, hent, exact_add]
    rfl
  unfold nicdm LS.nicdm
  simp only [hcore]

/-- The hypotheses of `C184_regular_partial` hold in float64 for the points 0, 1 and 3 on a line. -/
example : ∃ M, (Ieee.double.rounding ℝ).localScaling Lib.real LS.stdWorld (.mat false 3 3 (LS.toXR LS.line3)) 1 "distance" none
    1 = .ok ⟨3, M⟩ ∧ ∀ i j, ∃ y, M i j = .fin y ∧ 0 ≤ y ∧ y ≤ 1 := by
  have hw : Np.wrap (LS.trainInd 3 none).length (LS.kthOf "distance" 3 1) = some ⟨0, by decide⟩ := by decide
  have e := lsCore_ok (R := Ieee.double.rounding ℝ) Lib.real LS.stdWorld (LS.toXR LS.line3) 1 "distance" none 1
    (LS.jobs_pos _ 1 (Or.inr le_rfl)) _ hw
  have e' := localScaling_dense (R := Ieee.double.rounding ℝ) Lib.real LS.stdWorld (LS.toXR LS.line3) 1 "distance"
    (Or.inl rfl) none 1
  rw [e] at e'
  refine ⟨_, e', fun i j => C184_regular_partial Ieee.double Lib.real Lib.real_ok LS.stdWorld LS.line3 (a := 0) (b := 2)
    (by norm_num [Ieee.double]) (by norm_num [Ieee.double]) ?_ 1 none 1 _ e' i j⟩
  intro i j hij
  fin_cases i <;> fin_cases j <;> first | exact absurd rfl hij | (norm_num [LS.line3])

end Rounding

end HubToolbox
