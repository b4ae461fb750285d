import Verif.Rounding.IntDimError
import Verif.Rounding.HubStats

/-!
# C284: rows of `intrinsic_dimension` for integers
-/

set_option autoImplicit false

namespace HubToolbox.Rounding

open HubToolbox Ieee

/-- Sums of integers which are not too large are exact. -/
theorem sums_int {l : List ℤ} {s : XR ℝ} (h : (double.rounding ℝ).Sums (l.map fun z : ℤ => .fin (z : ℝ)) s) (hl : (l.map (|·|)).sum ≤ 2 ^ 53) :
    s = .fin ((l.sum : ℤ) : ℝ) := by
  have e : (fun z : ℤ => (.fin (z : ℝ) : XR ℝ)) = fun z : ℤ => .fin ((z : ℝ) * 2 ^ (0 : ℤ)) := by
    funext z
    rw [zpow_zero, mul_one]
  rw [e] at h
  have := Ieee.sum_grid (K := ℝ) double h hl (by decide) (by decide)
  rwa [zpow_zero, mul_one] at this

theorem mul_int {a b : ℤ} (h : |a * b| ≤ 2 ^ 53) : (double.rounding ℝ).mul (.fin (a : ℝ)) (.fin (b : ℝ)) = .fin ((a * b : ℤ) : ℝ) := by
  have := round_int h
  rw [Int.cast_mul] at this ⊢
  exact this

theorem add_int {a b : ℤ} (h : |a + b| ≤ 2 ^ 53) : (double.rounding ℝ).add (.fin (a : ℝ)) (.fin (b : ℝ)) = .fin ((a + b : ℤ) : ℝ) := by
  have := round_int h
  rw [Int.cast_add] at this ⊢
  exact this

theorem sub_int {a b : ℤ} (h : |a - b| ≤ 2 ^ 53) : (double.rounding ℝ).sub (.fin (a : ℝ)) (.fin (b : ℝ)) = .fin ((a - b : ℤ) : ℝ) := by
  have := round_int h
  rw [sub_fin]
  rw [Int.cast_sub] at this ⊢
  exact this

theorem zipWith_ofFn {α β γ : Type} {m : ℕ} (g : α → β → γ) (x : Fin m → α) (y : Fin m → β) :
    List.zipWith g (List.ofFn x) (List.ofFn y) = List.ofFn fun f => g (x f) (y f) := by
  apply List.ext_getElem
  · simp
  · intro i h1 h2
    simp

/-- Integers of which sums of products are exact. -/
structure SmallInts {n m : ℕ} (X : Fin n → Fin m → ℤ) (B : ℤ) : Prop where
  bound : ∀ i f, |X i f| ≤ B
  fits : 4 * m * B ^ 2 ≤ 2 ^ 53

namespace SmallInts
variable {n m : ℕ} {X : Fin n → Fin m → ℤ} {B : ℤ} (h : SmallInts X B)
include h

theorem prod_le (i j : Fin n) (f : Fin m) : |X i f * X j f| ≤ B ^ 2 := by
  rw [abs_mul, pow_two]
  exact mul_le_mul (h.bound i f) (h.bound j f) (abs_nonneg _) ((abs_nonneg _).trans (h.bound i f))

theorem sq_fits (hm : 0 < m) : B ^ 2 ≤ 2 ^ 53 := by
  have h1 := h.fits
  have h2 : (1 : ℤ) ≤ m := by exact_mod_cast hm
  have h3 : 0 ≤ B ^ 2 := sq_nonneg B
  have h4 : 1 * B ^ 2 ≤ (m : ℤ) * B ^ 2 := mul_le_mul_of_nonneg_right h2 h3
  linarith

theorem dot_le (i j : Fin n) : |∑ f, X i f * X j f| ≤ m * B ^ 2 := by
  refine (Finset.abs_sum_le_sum_abs _ _).trans ?_
  refine (Finset.sum_le_card_nsmul _ _ _ fun f _ => h.prod_le i j f).trans ?_
  simp

/-- Sums of products are exact, whatever the order. -/
theorem sums (i j : Fin n) {s : XR ℝ} (hs : (double.rounding ℝ).Sums (List.ofFn fun f =>
    (double.rounding ℝ).mul (.fin ((X i f : ℤ) : ℝ)) (.fin ((X j f : ℤ) : ℝ))) s) : s = .fin ((∑ f, X i f * X j f : ℤ) : ℝ) := by
  have e : (List.ofFn fun f => (double.rounding ℝ).mul (.fin ((X i f : ℤ) : ℝ)) (.fin ((X j f : ℤ) : ℝ)))
      = (List.ofFn fun f => X i f * X j f).map fun z : ℤ => .fin (z : ℝ) := by
    rw [List.map_ofFn]
    congr 1
    funext f
    exact mul_int ((h.prod_le i j f).trans (h.sq_fits (Fin.pos f)))
  rw [e] at hs
  rw [sums_int hs ?_, List.sum_ofFn]
  rw [List.map_ofFn, List.sum_ofFn]
  refine (Finset.sum_le_card_nsmul _ _ _ fun f _ => h.prod_le i j f).trans ?_
  have h1 := h.fits
  have h3 : 0 ≤ (m : ℤ) * B ^ 2 := by positivity
  simp only [Finset.card_univ, Fintype.card_fin, nsmul_eq_mul]
  linarith

/-- Squared distances are exact. -/
theorem dist_exact {L : IdLib} (hL : L.Near) (i j : Fin n) :
    (double.rounding ℝ).idDist L (fun i f => .fin ((X i f : ℤ) : ℝ)) i j = .fin (IntDim.sqDist (fun i f => ((X i f : ℤ) : ℝ)) i j) := by
  have hn : ∀ i, (double.rounding ℝ).idNorm2 L (fun i f => .fin ((X i f : ℤ) : ℝ)) i = .fin ((∑ f, X i f * X i f : ℤ) : ℝ) := by
    intro i
    apply h.sums
    apply hL.sum_some_order
    intro a ha
    obtain ⟨f, rfl⟩ := (List.mem_ofFn' _ _).1 ha
    show (double.rounding ℝ).Float ((double.rounding ℝ).mul _ _)
    rw [mul_int ((h.prod_le i i f).trans (h.sq_fits (Fin.pos f)))]
    exact round_int ((h.prod_le i i f).trans (h.sq_fits (Fin.pos f)))
  have hd : L.dot (List.ofFn fun f => .fin ((X i f : ℤ) : ℝ)) (List.ofFn fun f => .fin ((X j f : ℤ) : ℝ)) = .fin ((∑ f, X i f * X j f : ℤ) : ℝ) := by
    apply h.sums
    rw [← zipWith_ofFn]
    apply hL.dot_some_order
    simp
  unfold idDist
  rw [hn, hn, hd]
  have h1 := h.fits
  have d1 := abs_le.1 (h.dot_le i i)
  have d2 := abs_le.1 (h.dot_le j j)
  have d3 := abs_le.1 (h.dot_le i j)
  have h3 : 0 ≤ (m : ℤ) * B ^ 2 := by positivity
  have e2 : (.fin 2 : XR ℝ) = .fin ((2 : ℤ) : ℝ) := by norm_num
  rw [e2, mul_int (by rw [abs_le]; constructor <;> linarith), add_int (by rw [abs_le]; constructor <;> linarith),
    sub_int (by rw [abs_le]; constructor <;> linarith)]
  congr 1
  rw [IntDim.sqDist_eq]
  push_cast
  rw [Finset.mul_sum, ← Finset.sum_add_distrib, ← Finset.sum_sub_distrib]
  exact Finset.sum_congr rfl fun f _ => by ring

end SmallInts

/-- Sorting of numbers. -/
theorem sort_fin (l : List ℝ) : Np.sort (l.map (XR.fin : ℝ → XR ℝ)) = (Np.sort l).map XR.fin := by
  refine ((Np.sort_perm _).trans ((Np.sort_perm l).map _).symm).eq_of_pairwise' (Np.sort_pairwise _) ?_
  rw [List.pairwise_map]
  exact (Np.sort_pairwise l).imp fun hab => by simpa using hab

/-- Logarithms of distances which are square roots of integers. -/
theorem log_error {L : IdLib} (hL : L.Near) {n m : ℕ} {X : Fin n → Fin m → ℝ} {i : Fin n} {T : ℕ → ℝ} (hT : IntDim.Spec.Neighbours X i T) {d : Fin n → XR ℝ}
    (hd : ∀ j, d j = .fin (IntDim.sqDist X i j)) {c : ℕ} (hc : c + 1 < n) (h1 : 1 ≤ T c ^ 2) (h2 : T c ^ 2 ≤ 2 ^ 53) (h0 : 0 < T c) :
    ∃ a, (double.rounding ℝ).idLog L d c = .fin a ∧ double.round a = .fin a ∧ |a - Real.log (T c)| ≤ 384 * u ∧ 0 ≤ Real.log (T c) ∧ Real.log (T c) ≤ 20 := by
  have hu := u_pos
  have h50 := u_le_50
  norm_num at h50
  have el : Real.log (T c ^ 2) = 2 * Real.log (T c) := by rw [Real.log_pow]; norm_num
  have l0 : 0 ≤ Real.log (T c ^ 2) := Real.log_nonneg h1
  have l1 : Real.log (T c ^ 2) ≤ 40 := by
    refine (Real.log_le_log (by positivity) h2).trans ?_
    rw [Real.log_pow]
    have := Real.log_two_lt_d9
    push_cast
    linarith
  unfold idLog
  have e : (List.ofFn d) = (List.ofFn (IntDim.sqDist X i)).map XR.fin := by
    rw [List.map_ofFn]
    congr 1
    funext j
    exact hd j
  rw [e, sort_fin, IntDim.sorted_sqDist X i T hT, List.map_cons, List.map_cons, List.getD_cons_succ, List.map_map, List.map_map,
    List.getD_eq_getElem _ _ (by simp; omega)]
  simp only [List.getElem_map, List.getElem_range, Function.comp]
  have ef : (double.rounding ℝ).idFix (.fin (T c ^ 2)) = .fin (T c ^ 2) := by
    unfold idFix
    rw [if_neg]
    simp only [XR.fle, not_le]
    linarith
  rw [ef]
  obtain ⟨y, y1, y2, y3⟩ := hL.log_near (T c ^ 2) ((zpow_le_one_of_nonpos₀ one_le_two (by norm_num)).trans h1) (h2.trans (by norm_num))
  rw [y1]
  have hy := abs_le.1 y3
  have hyb : |1 / 2 * y| ≤ 30 := by
    rw [abs_le]
    constructor <;> linarith
  have h30 : double.round (30 : ℝ) = .fin 30 := by
    have := round_int (z := 30) (by norm_num)
    simpa using this
  obtain ⟨a, a1, -⟩ := Ieee.round_abs_le (K := ℝ) double hyb h30
  have a3 := abs_le.1 (round_abs_error (hyb.trans_lt (by norm_num)) a1)
  refine ⟨a, a1, (double.rounding ℝ).idem _ _ a1, ?_, by linarith, by linarith⟩
  rw [abs_le]
  constructor <;> linarith

/-- Local estimates. -/
theorem hat_error {b : ℕ → XR ℝ} {T : ℕ → ℝ} {k : ℕ} (h2 : 2 ≤ k) (hk : k ≤ 2 ^ 20) (h0 : ∀ c, c < k → 0 < T c)
    (hb : ∀ c, c < k → ∃ a, b c = .fin a ∧ double.round a = .fin a ∧ |a - Real.log (T c)| ≤ 384 * u ∧ 0 ≤ Real.log (T c) ∧ Real.log (T c) ≤ 20)
    {s0 η : ℝ} (hs : s0 ≤ IntDim.Spec.logRatios T k) (hη : 1200 * (k : ℝ) ^ 2 * u ≤ η * s0) (hη4 : η ≤ 1 / 4) (hs0 : 0 < s0) :
    ∃ y, (double.rounding ℝ).idHat b k = .fin y ∧ double.round y = .fin y ∧
      |y - ((k : ℝ) - 2) / IntDim.Spec.logRatios T k| ≤ (4 / 3 * η + 2 * u) * (((k : ℝ) - 2) / IntDim.Spec.logRatios T k) ∧
      ((k : ℝ) - 2) / IntDim.Spec.logRatios T k ≤ 2 ^ 55 ∧
      (((k : ℝ) - 2) / IntDim.Spec.logRatios T k = 0 ∨ 1 / 2 ^ 25 ≤ ((k : ℝ) - 2) / IntDim.Spec.logRatios T k) := by
  have hu := u_pos
  have h50 := u_le_50
  norm_num at h50
  choose! a a1 a2 a3 a4 a5 using hb
  have hk2 : (2 : ℝ) ≤ k := by exact_mod_cast h2
  have hk20 : (k : ℝ) ≤ 1048576 := by exact_mod_cast hk
  obtain ⟨d, d1, d2⟩ := den_error (a := a) (t := fun c => Real.log (T c)) hk a2 a3 (fun c hc => ⟨a4 c hc, a5 c hc⟩) (by omega)
  rw [IntDim.logRatios_eq T k (by omega) h0] at d2
  have hcum : ∀ c, c < k → (double.rounding ℝ).idCumsum b c = (double.rounding ℝ).idCumsum (fun c => .fin (a c)) c := by
    intro c hc
    induction c with
    | zero => exact a1 0 hc
    | succ c ih =>
      show (double.rounding ℝ).add _ (b (c + 1)) = (double.rounding ℝ).add _ (.fin (a (c + 1)))
      rw [ih (by omega), a1 (c + 1) hc]
  set s := IntDim.Spec.logRatios T k with hsdef
  have hsp : 0 < s := hs0.trans_le hs
  have hη0 : 0 ≤ η := by
    have : 0 ≤ η * s0 := (by positivity : (0 : ℝ) ≤ 1200 * (k : ℝ) ^ 2 * u).trans hη
    exact nonneg_of_mul_nonneg_left this hs0
  have d3 : |d - -s| ≤ η * s := (d2.trans hη).trans (mul_le_mul_of_nonneg_left hs hη0)
  obtain ⟨dneg, q1⟩ := quot_pert (k := (k : ℝ) - 2) (by linarith) hsp hη4 d3
  unfold idHat
  rw [hcum (k - 1) (by omega), a1 (k - 1) (by omega), d1]
  have er : (double.rounding ℝ).rnd (-((k : ℝ) - 2)) = .fin (-((k : ℝ) - 2)) := by
    have := round_int (z := -((k : ℤ) - 2)) (by rw [abs_le]; constructor <;> omega)
    push_cast at this
    exact this
  rw [er]
  have ed : (double.rounding ℝ).div (.fin (-((k : ℝ) - 2))) (.fin d) = double.round (-((k : ℝ) - 2) / d) := by
    unfold div
    simp only [XR.div, dneg.ne, if_false]
    rfl
  rw [ed]
  set q := ((k : ℝ) - 2) / s with hq
  have hq0 : 0 ≤ q := div_nonneg (by linarith) hsp.le
  -- sizes
  have hs20 : s ≤ 2 ^ 25 := by
    have := IntDim.logRatios_eq T k (by omega) h0
    have h3 : ∑ c ∈ Finset.range k, Real.log (T c) ≥ 0 := Finset.sum_nonneg fun c hc => a4 c (Finset.mem_range.1 hc)
    have h4 : Real.log (T (k - 1)) * k ≤ 20 * 1048576 := mul_le_mul (a5 _ (by omega)) hk20 (by linarith) (by norm_num)
    norm_num
    linarith
  have hslow : 1200 * (k * u) ≤ s := by
    have h3 : (k : ℝ) ≤ (k : ℝ) ^ 2 := by nlinarith
    have h4 : η * s0 ≤ 1 / 4 * s0 := mul_le_mul_of_nonneg_right hη4 hs0.le
    have h5 : k * u ≤ (k : ℝ) ^ 2 * u := mul_le_mul_of_nonneg_right h3 hu.le
    have h6 : 0 ≤ k * u := by positivity
    linarith
  have hqup : q ≤ 2 ^ 55 := by
    rw [hq, div_le_iff₀ hsp]
    have hul : (1 : ℝ) / 2 ^ 54 ≤ u := by
      rw [u_eq]
      norm_num
    have h6 : (k : ℝ) * (1 / 2 ^ 54) ≤ k * u := mul_le_mul_of_nonneg_left hul (by linarith)
    have h7 : (k : ℝ) * (1 / 2 ^ 54) ≤ s := by
      have : 0 ≤ k * u := by positivity
      linarith
    norm_num at h7 ⊢
    linarith
  have hqa := abs_le.1 q1
  have hηq : 4 / 3 * η * q ≤ 1 / 3 * q := mul_le_mul_of_nonneg_right (by linarith) hq0
  have hqq : |(-((k : ℝ) - 2)) / d| ≤ 4 / 3 * q := by
    rw [abs_le]
    constructor <;> linarith
  have hbig : |(-((k : ℝ) - 2)) / d| ≤ 2 ^ 60 := hqq.trans (by norm_num at hqup ⊢; linarith)
  have hlow : q = 0 ∨ 1 / 2 ^ 25 ≤ q := by
    rcases Nat.lt_or_ge 2 k with h3 | h3
    · right
      have h3' : (3 : ℝ) ≤ k := by exact_mod_cast h3
      rw [hq, div_le_div_iff₀ (by norm_num) hsp]
      linarith
    · left
      have : k = 2 := by omega
      rw [hq, this]
      norm_num
  have hmod : (-((k : ℝ) - 2)) / d = 0 ∨ 1 / 2 ^ 100 ≤ |(-((k : ℝ) - 2)) / d| := by
    rcases hlow with h4 | h4
    · left
      rw [h4] at hqa
      linarith [hqa.1, hqa.2]
    · right
      refine le_trans ?_ (le_abs_self _)
      have : 2 / 3 * q ≤ (-((k : ℝ) - 2)) / d := by linarith
      refine le_trans ?_ this
      norm_num at h4 ⊢
      linarith
  obtain ⟨y, y1, y2, y3⟩ := rel_moderate hmod hbig
  refine ⟨y, y1, y2, ?_, hqup, hlow⟩
  have y4 := abs_le.1 (y3.trans (mul_le_mul_of_nonneg_left hqq hu.le))
  have : 0 ≤ u * q := by positivity
  rw [abs_le]
  constructor <;> linarith

/-- Means of values which are not negative. -/
theorem mean_error {ι : Type} {l : List ι} {y v : ι → ℝ} {δ : ℝ} {s : XR ℝ} (hf : ∀ i ∈ l, double.round (y i) = .fin (y i))
    (hv : ∀ i ∈ l, 0 ≤ v i ∧ v i ≤ 2 ^ 55 ∧ (v i = 0 ∨ 1 / 2 ^ 25 ≤ v i)) (hy : ∀ i ∈ l, |y i - v i| ≤ δ * v i) (hδ0 : 0 ≤ δ) (hδ : δ ≤ 1 / 2)
    (h0 : 0 < l.length) (hn : l.length ≤ 2 ^ 25) (hs : (double.rounding ℝ).Sums (l.map fun i => .fin (y i)) s) :
    ∃ r, (double.rounding ℝ).div s ((double.rounding ℝ).ofNat l.length) = .fin r ∧
      |r - (l.map v).sum / l.length| ≤ (δ + 2 * l.length * u + 2 * u) * ((l.map v).sum / l.length) := by
  have hu := u_pos
  have h50 := u_le_50
  norm_num at h50
  have hn1 : (1 : ℝ) ≤ l.length := by exact_mod_cast h0
  have hn2 : (l.length : ℝ) ≤ 33554432 := by exact_mod_cast hn
  have hsums : ∀ l' : List ι, (∀ i ∈ l', i ∈ l) → |(l'.map y).sum - (l'.map v).sum| ≤ δ * (l'.map v).sum ∧ (l'.map fun i => |y i|).sum ≤ 3 / 2 * (l'.map v).sum ∧
      0 ≤ (l'.map v).sum ∧ (l'.map v).sum ≤ 2 ^ 55 * l'.length ∧ ((l'.map v).sum = 0 ∨ 1 / 2 ^ 25 ≤ (l'.map v).sum) := by
    intro l' hl'
    induction l' with
    | nil => simp
    | cons a l' ih =>
      obtain ⟨i1, i2, i3, i4, i5⟩ := ih fun i hi => hl' i (List.mem_cons_of_mem _ hi)
      have ha := hl' a List.mem_cons_self
      obtain ⟨v1, v2, v3⟩ := hv a ha
      have y1 := hy a ha
      have hδv : δ * v a ≤ 1 / 2 * v a := mul_le_mul_of_nonneg_right hδ v1
      simp only [List.map_cons, List.sum_cons, List.length_cons, Nat.cast_add, Nat.cast_one]
      refine ⟨?_, ?_, by linarith, by linarith, ?_⟩
      · rw [abs_le] at i1 y1 ⊢
        constructor <;> linarith
      · have : |y a| ≤ 3 / 2 * v a := by
          rw [abs_le] at y1 ⊢
          constructor <;> linarith
        linarith
      · rcases i5 with h | h
        · rcases v3 with h' | h'
          · left; linarith
          · right; linarith
        · right; linarith
  obtain ⟨i1, i2, i3, i4, i5⟩ := hsums l fun _ h => h
  set V := (l.map v).sum with hV
  have hg := hood_gamma h0 hn
  have hg0 : 0 ≤ (1 + u) ^ (l.length - 1) - 1 := by
    have : (1 : ℝ) ≤ (1 + u) ^ (l.length - 1) := one_le_pow₀ (by linarith)
    linarith
  have hnu : l.length * u ≤ 1 / 1000 := by
    have := mul_le_mul hn2 h50 hu.le (by norm_num)
    norm_num at this ⊢
    linarith
  have em : l.map (fun i => (.fin (y i) : XR ℝ)) = (l.map y).map .fin := by rw [List.map_map]; rfl
  rw [em] at hs
  have eabs : ((l.map y).map (|·|)).sum = (l.map fun i => |y i|).sum := by rw [List.map_map]; rfl
  obtain ⟨w, rfl, w2, w3⟩ := Ieee.sum_error (K := ℝ) double hs (by
      intro x hx
      obtain ⟨i, hi, rfl⟩ := List.mem_map.1 hx
      exact hf i hi) (by
      rw [eabs, List.length_map]
      have h1 : (1 + u) ^ (l.length - 1) ≤ 2 := by linarith
      have h2 : (l.map fun i => |y i|).sum ≤ 2 ^ 90 := by
        have h3 : (2 : ℝ) ^ 55 * l.length ≤ 2 ^ 55 * 33554432 := mul_le_mul_of_nonneg_left hn2 (by norm_num)
        refine (i2.trans (mul_le_mul_of_nonneg_left (i4.trans h3) (by norm_num))).trans (by norm_num)
      have h3 : 0 ≤ (l.map fun i => |y i|).sum := List.sum_nonneg (by
        intro x hx
        obtain ⟨i, -, rfl⟩ := List.mem_map.1 hx
        exact abs_nonneg _)
      refine (mul_le_mul h1 h2 h3 (by norm_num)).trans ?_
      have : (2 : ℝ) * 2 ^ 90 = 2 ^ (91 : ℤ) := by norm_num
      rw [this]
      exact zpow_le_zpow_right₀ one_le_two (by decide))
  rw [eabs, List.length_map] at w3
  have w4 : |w - (l.map y).sum| ≤ l.length * u * (3 / 2 * V) := by
    refine w3.trans ?_
    exact mul_le_mul hg i2 (List.sum_nonneg (by
        intro x hx
        obtain ⟨i, -, rfl⟩ := List.mem_map.1 hx
        exact abs_nonneg _)) (by positivity)
  have w5 : |w - V| ≤ (δ + 3 / 2 * l.length * u) * V := by
    rw [abs_le] at w4 i1 ⊢
    constructor <;> linarith
  have hδV : (δ + 3 / 2 * l.length * u) * V ≤ 3 / 5 * V := mul_le_mul_of_nonneg_right (by linarith) i3
  rw [ofNat_exact (hn.trans (by norm_num))]
  have hne : (l.length : ℝ) ≠ 0 := by linarith
  have hpos : (0 : ℝ) < l.length := by linarith
  have ed : (double.rounding ℝ).div (.fin w) (.fin (l.length : ℝ)) = double.round (w / l.length) := by
    unfold div
    simp only [XR.div, hne, if_false]
    rfl
  rw [ed]
  have q1 : |w / l.length - V / l.length| ≤ (δ + 3 / 2 * l.length * u) * (V / l.length) := by
    rw [← sub_div, abs_div, abs_of_pos hpos, ← mul_div_assoc]
    exact div_le_div_of_nonneg_right w5 hpos.le
  have V0 : 0 ≤ V / l.length := div_nonneg i3 hpos.le
  have V1 : V / l.length ≤ 2 ^ 55 := by rw [div_le_iff₀ hpos]; exact i4
  have V2 : V / l.length = 0 ∨ 1 / 2 ^ 50 ≤ V / l.length := by
    rcases i5 with h | h
    · left; rw [h, zero_div]
    · right
      rw [le_div_iff₀ hpos]
      refine le_trans ?_ h
      have : (1 : ℝ) / 2 ^ 50 * l.length ≤ 1 / 2 ^ 50 * 33554432 := mul_le_mul_of_nonneg_left hn2 (by norm_num)
      exact this.trans (by norm_num)
  set μ := V / l.length with hμ
  have q2 : (δ + 3 / 2 * l.length * u) * μ ≤ 3 / 5 * μ := mul_le_mul_of_nonneg_right (by linarith) V0
  have q3 := abs_le.1 q1
  have q4 : |w / l.length| ≤ 8 / 5 * μ := by
    rw [abs_le]
    constructor <;> linarith
  obtain ⟨r, r1, -, r3⟩ := rel_moderate (x := w / l.length) (by
      rcases V2 with h | h
      · left
        rw [h] at q3
        linarith [q3.1, q3.2]
      · right
        refine le_trans ?_ (le_abs_self _)
        have : 2 / 5 * μ ≤ w / l.length := by linarith
        refine le_trans ?_ this
        norm_num at h ⊢
        linarith) (q4.trans (by norm_num at V1 ⊢; linarith))
  refine ⟨r, r1, ?_⟩
  have r4 := abs_le.1 (r3.trans (mul_le_mul_of_nonneg_left q4 hu.le))
  have p1 : 0 ≤ u * μ := by positivity
  have p2 : 0 ≤ l.length * u * μ := by positivity
  rw [abs_le]
  constructor <;> linarith

end HubToolbox.Rounding
