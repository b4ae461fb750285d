import Verif.Rounding.IntDimProps
import Verif.IntDim.Robust

/-!
# C313: `intrinsic_dimension` with `estimator='mackay'` in double precision
-/

set_option autoImplicit false

namespace HubToolbox.Rounding

open HubToolbox Ieee

/-- `dhat **= -1`, `dhat_k = dhat.mean(0)`, `(dhat_k ** -1).mean()` (`/repo/hub_toolbox/intrinsic_dimension.py` lines 149-153), where powers with exponent `-1` are
reciprocals (as in numpy); `w` values of `k` from `k1` on. -/
noncomputable def idMackay (R : Rounding ℝ) (L : IdLib) {n : ℕ} (a : Fin n → ℕ → XR ℝ) (k1 w : ℕ) : XR ℝ :=
  R.div (L.sum ((List.range w).map fun b => R.div (.fin 1)
    (R.div (L.sum ((List.finRange n).map fun i => R.div (.fin 1) (R.idHat (a i) (k1 + b)))) (R.ofNat n)))) (R.ofNat w)

/-- `intrinsic_dimension(X, k1, k2, 'mackay', 'vector', None)` for an array of floats (`/repo/hub_toolbox/intrinsic_dimension.py` lines 24-154). -/
noncomputable def intrinsicDimensionMackay (R : Rounding ℝ) (L : IdLib) (S : IntDim.LexSort) {n m : ℕ} (X : Fin n → Fin m → ℝ) (k1 k2 : ℤ) : Py (XR ℝ) :=
  if k1 < 1 ∨ k2 < k1 ∨ (n : ℤ) ≤ k2 then .error .valueError
  else if m = 0 then .error .typeError
  else
    let Y : Fin n → Fin m → XR ℝ := fun i f => .fin (X (S.run X i) f)
    .ok (R.idMackay L (fun i => R.idLog L (R.idDist L Y i)) k1.toNat (k2 + 1 - k1).toNat)

/-- Reciprocals of accurate numbers are accurate. -/
theorem inv_error {y v δ : ℝ} (hv : 1 / 2 ^ 25 ≤ v) (hv' : v ≤ 2 ^ 25) (hy : |y - v| ≤ δ * v) (hδ0 : 0 ≤ δ) (hδ : δ ≤ 1 / 4) :
    ∃ z, (double.rounding ℝ).div (.fin 1) (.fin y) = .fin z ∧ double.round z = .fin z ∧ |z - 1 / v| ≤ (4 / 3 * δ + 2 * u) * (1 / v) := by
  have hu := u_pos
  have hv0 : 0 < v := lt_of_lt_of_le (by norm_num) hv
  have hδv : δ * v ≤ 1 / 4 * v := mul_le_mul_of_nonneg_right hδ hv0.le
  have hb := abs_le.1 hy
  have hy34 : 3 / 4 * v ≤ y := by linarith
  have hy54 : y ≤ 5 / 4 * v := by linarith
  have hy0 : 0 < y := lt_of_lt_of_le (by positivity) hy34
  have e : (double.rounding ℝ).div (.fin 1) (.fin y) = double.round (1 / y) := by
    unfold Rounding.div
    simp only [XR.div, hy0.ne', if_false]
    rfl
  have hinv0 : 0 < 1 / y := by positivity
  have hup : 1 / y ≤ 4 / 3 * (1 / v) := by
    rw [mul_one_div, div_le_div_iff₀ hy0 hv0]
    linarith
  have hiv : 1 / v ≤ 2 ^ 25 := by
    rw [div_le_iff₀ hv0]
    norm_num at hv ⊢
    linarith
  obtain ⟨z, z1, z2, z3⟩ := rel_moderate (x := 1 / y)
    (Or.inr (by
      rw [abs_of_pos hinv0, div_le_div_iff₀ (by norm_num) hy0]
      norm_num at hv' ⊢
      linarith))
    (by
      rw [abs_of_pos hinv0]
      norm_num at hiv hup ⊢
      linarith)
  refine ⟨z, e.trans z1, z2, ?_⟩
  rw [abs_of_pos hinv0] at z3
  have h1 : |1 / y - 1 / v| ≤ 4 / 3 * δ * (1 / v) := by
    have e1 : 1 / y - 1 / v = (v - y) / (y * v) := by
      field_simp
    rw [e1, abs_div, abs_of_pos (mul_pos hy0 hv0), abs_sub_comm, mul_one_div, div_le_div_iff₀ (mul_pos hy0 hv0) hv0]
    have h3 : δ * v * v ≤ δ * (4 / 3 * y) * v := by
      refine mul_le_mul_of_nonneg_right (mul_le_mul_of_nonneg_left (by linarith) hδ0) hv0.le
    have h4 : |y - v| * v ≤ δ * v * v := mul_le_mul_of_nonneg_right hy hv0.le
    linarith
  have h2 : u * (1 / y) ≤ 2 * u * (1 / v) := by
    have := mul_le_mul_of_nonneg_left hup hu.le
    have h0 : 0 ≤ u * (1 / v) := by positivity
    linarith
  calc |z - 1 / v| ≤ |z - 1 / y| + |1 / y - 1 / v| := abs_sub_le _ _ _
    _ ≤ 2 * u * (1 / v) + 4 / 3 * δ * (1 / v) := add_le_add (z3.trans h2) h1
    _ = _ := by ring

/-- Bounds of means. -/
theorem mean_bounds {ι : Type} (l : List ι) (v : ι → ℝ) (a b : ℝ) (h : ∀ i ∈ l, a ≤ v i ∧ v i ≤ b) (h0 : 0 < l.length) :
    a ≤ (l.map v).sum / l.length ∧ (l.map v).sum / l.length ≤ b := by
  have key : ∀ l' : List ι, (∀ i ∈ l', a ≤ v i ∧ v i ≤ b) → a * l'.length ≤ (l'.map v).sum ∧ (l'.map v).sum ≤ b * l'.length := by
    intro l'
    induction l' with
    | nil => simp
    | cons c l' ih =>
      intro h
      have h1 := ih fun i hi => h i (List.mem_cons_of_mem _ hi)
      have h2 := h c List.mem_cons_self
      simp only [List.map_cons, List.sum_cons, List.length_cons, Nat.cast_add, Nat.cast_one]
      constructor <;> linarith
  have hl : (0 : ℝ) < l.length := by exact_mod_cast h0
  rw [le_div_iff₀ hl, div_le_iff₀ hl]
  exact key l h

/-- The mean over the points for one `k`, and its reciprocal. -/
theorem column_error {n : ℕ} {y v : Fin n → ℝ} {δ : ℝ} {s : XR ℝ} (L : IdLib) (hL : L.Near) (hv : ∀ i, 1 / 2 ^ 25 ≤ v i ∧ v i ≤ 2 ^ 25)
    (hy : ∀ i, |y i - v i| ≤ δ * v i) (hδ0 : 0 ≤ δ) (hδ : δ ≤ 1 / 20) (h0 : 0 < n) (hn : n ≤ 2 ^ 25)
    (hs : s = (double.rounding ℝ).div (.fin 1)
      ((double.rounding ℝ).div (L.sum ((List.finRange n).map fun i => (double.rounding ℝ).div (.fin 1) (.fin (y i)))) ((double.rounding ℝ).ofNat n))) :
    ∃ z, s = .fin z ∧ double.round z = .fin z ∧
      |z - 1 / ((∑ i, 1 / v i) / n)| ≤ (16 / 9 * δ + (8 / 3 * n + 8) * u) * (1 / ((∑ i, 1 / v i) / n)) ∧
      1 / 2 ^ 25 ≤ 1 / ((∑ i, 1 / v i) / n) ∧ 1 / ((∑ i, 1 / v i) / n) ≤ 2 ^ 25 := by
  have hu := u_pos
  have h50 := u_le_50
  norm_num at h50
  have hinv : ∀ x : ℝ, 1 / 2 ^ 25 ≤ x → x ≤ 2 ^ 25 → 1 / 2 ^ 25 ≤ 1 / x ∧ 1 / x ≤ 2 ^ 25 := by
    intro x h1 h2
    have hx : 0 < x := lt_of_lt_of_le (by norm_num) h1
    constructor
    · exact one_div_le_one_div_of_le hx h2
    · rw [div_le_iff₀ hx]
      norm_num at h1 ⊢
      linarith
  choose z z1 z2 z3 using fun i => inv_error (hv i).1 (hv i).2 (hy i) hδ0 (hδ.trans (by norm_num))
  have hlist : (List.finRange n).map (fun i => (double.rounding ℝ).div (.fin 1) (.fin (y i))) = (List.finRange n).map fun i => .fin (z i) :=
    List.map_congr_left fun i _ => z1 i
  have hlen : (List.finRange n).length = n := List.length_finRange
  obtain ⟨r, r1, r2⟩ := mean_error (l := List.finRange n) (y := z) (v := fun i => 1 / v i) (δ := 4 / 3 * δ + 2 * u)
    (s := L.sum ((List.finRange n).map fun i => .fin (z i))) (fun i _ => z2 i)
    (fun i _ => by
      obtain ⟨a1, a2⟩ := hinv (v i) (hv i).1 (hv i).2
      exact ⟨le_trans (by norm_num) a1, a2.trans (by norm_num), Or.inr a1⟩)
    (fun i _ => z3 i) (by positivity) (by linarith) (by rw [hlen]; exact h0) (by rw [hlen]; exact hn)
    (hL.sum_some_order _ (by
      intro a ha
      obtain ⟨i, -, rfl⟩ := List.mem_map.1 ha
      exact z2 i))
  have hmb := mean_bounds (List.finRange n) (fun i => 1 / v i) (1 / 2 ^ 25) (2 ^ 25) (fun i _ => hinv (v i) (hv i).1 (hv i).2) (by rw [hlen]; exact h0)
  rw [hlen] at r1 r2 hmb
  rw [← Fin.sum_univ_def] at r2 hmb
  have hn1 : (n : ℝ) ≤ 33554432 := by exact_mod_cast hn
  have hnu : n * u ≤ 1 / 1000 := by
    have := mul_le_mul hn1 h50 hu.le (by norm_num)
    norm_num at this ⊢
    linarith
  obtain ⟨t, t1, t2, t3⟩ := inv_error hmb.1 hmb.2 r2 (by positivity) (by linarith)
  refine ⟨t, ?_, t2, t3.trans (le_of_le_of_eq (mul_le_mul_of_nonneg_right (?_ : _ ≤ 16 / 9 * δ + (8 / 3 * n + 8) * u) ?_) rfl), hinv _ hmb.1 hmb.2⟩
  · rw [hs, hlist, r1]
    exact t1
  · linarith
  · exact le_trans (by norm_num) (hinv _ hmb.1 hmb.2).1

/-- **C313**: for different vectors of integers which are not too large the corrected estimate computed in double precision is accurate, for `k1 ≥ 3`. -/
theorem C313 (L : IdLib) (hL : L.Near) (S : IntDim.LexSort) {n m : ℕ} (X : Fin n → Fin m → ℤ) (B : ℤ) (h : SmallInts X B)
    (hX : Function.Injective X) (T : Fin n → ℕ → ℝ) (hT : ∀ i, IntDim.Spec.Neighbours (fun i f => ((X i f : ℤ) : ℝ)) i (T i))
    (k1 k2 : ℕ) (h1 : 3 ≤ k1) (h12 : k1 ≤ k2) (h2 : k2 < n) (hk : k2 ≤ 2 ^ 20) (hn : n ≤ 2 ^ 25)
    (s : ℝ) (hs : ∀ i k, k1 ≤ k → k ≤ k2 → s ≤ IntDim.Spec.logRatios (T i) k) (hs0 : 36000 * (k2 : ℝ) ^ 2 * 2 ^ (-53 : ℤ) ≤ s) (hs1 : (k2 : ℝ) ≤ 2 ^ 25 * s) :
    ∃ r, (double.rounding ℝ).intrinsicDimensionMackay L S (fun i f => ((X i f : ℤ) : ℝ)) k1 k2 = .ok (.fin r) ∧
      |r - IntDim.Spec.mackay T k1 k2|
        ≤ (2850 * (k2 : ℝ) ^ 2 / s + 3 * n + 2 * (k2 + 1 - k1) + 14) * 2 ^ (-53 : ℤ) * IntDim.Spec.mackay T k1 k2 := by
  have hu := u_pos
  have h50 := u_le_50
  norm_num at h50
  rw [← u_eq] at hs0 ⊢
  have hm : m ≠ 0 := by
    rintro rfl
    have : (⟨0, by omega⟩ : Fin n) = ⟨1, by omega⟩ := hX (by funext f; exact f.elim0)
    simp at this
  unfold intrinsicDimensionMackay
  rw [if_neg (by omega), if_neg hm]
  set σ := S.run (fun i f => ((X i f : ℤ) : ℝ)) with hσ
  have e1 : ((k1 : ℤ)).toNat = k1 := by omega
  have e2 : ((k2 : ℤ) + 1 - (k1 : ℤ)).toNat = k2 + 1 - k1 := by omega
  rw [e1, e2]
  set w := k2 + 1 - k1 with hwdef
  have hwr : (w : ℝ) = (k2 : ℝ) + 1 - k1 := by
    rw [hwdef, Nat.cast_sub (by omega)]
    push_cast
    ring
  have hk2 : (3 : ℝ) ≤ k2 := by exact_mod_cast h1.trans h12
  have hsp : 0 < s := lt_of_lt_of_le (by positivity) hs0
  have hn0 : 0 < n := by omega
  set η := 1200 * (k2 : ℝ) ^ 2 * u / s with hη
  have hη0 : 0 ≤ η := by positivity
  have hη30 : η ≤ 1 / 30 := by
    rw [hη, div_le_iff₀ hsp]
    linarith
  have hη' : η * s = 1200 * (k2 : ℝ) ^ 2 * u := by rw [hη]; field_simp
  have hhat := hats hL h hX σ hT (by omega : 2 ≤ k1) h2 hk hs hsp (hη30.trans (by norm_num)) hη'
  choose! y y1 y2 y3 y4 y5 using hhat
  set v : Fin n → ℕ → ℝ := fun i b => (((k1 + b : ℕ) : ℝ) - 2) / IntDim.Spec.logRatios (T (σ i)) (k1 + b) with hv
  have hvb : ∀ i b, b < w → 1 / 2 ^ 25 ≤ v i b ∧ v i b ≤ 2 ^ 25 := by
    intro i b hb
    have hl := hs (σ i) (k1 + b) (by omega) (by omega)
    have hl0 : 0 < IntDim.Spec.logRatios (T (σ i)) (k1 + b) := hsp.trans_le hl
    have hk3 : (3 : ℝ) ≤ ((k1 + b : ℕ) : ℝ) := by exact_mod_cast (by omega : 3 ≤ k1 + b)
    have hkk : ((k1 + b : ℕ) : ℝ) ≤ k2 := by exact_mod_cast (by omega : k1 + b ≤ k2)
    have hp : 0 < v i b := div_pos (by linarith) hl0
    refine ⟨(y5 i b hb).resolve_left hp.ne', ?_⟩
    rw [hv]
    beta_reduce
    rw [div_le_iff₀ hl0]
    norm_num at hs1 ⊢
    norm_num at hkk
    linarith
  have hcol : ∀ b, b < w → ∃ z, (double.rounding ℝ).div (.fin 1) ((double.rounding ℝ).div (L.sum ((List.finRange n).map fun i =>
        (double.rounding ℝ).div (.fin 1) ((double.rounding ℝ).idHat ((double.rounding ℝ).idLog L
          ((double.rounding ℝ).idDist L (fun i f => .fin ((X (σ i) f : ℤ) : ℝ)) i)) (k1 + b)))) ((double.rounding ℝ).ofNat n)) = .fin z ∧
      double.round z = .fin z ∧
      |z - 1 / ((∑ i, 1 / v i b) / n)| ≤ (16 / 9 * (4 / 3 * η + 2 * u) + (8 / 3 * n + 8) * u) * (1 / ((∑ i, 1 / v i b) / n)) ∧
      1 / 2 ^ 25 ≤ 1 / ((∑ i, 1 / v i b) / n) ∧ 1 / ((∑ i, 1 / v i b) / n) ≤ 2 ^ 25 := by
    intro b hb
    refine column_error (y := fun i => y i b) (v := fun i => v i b) L hL (fun i => hvb i b hb) (fun i => y3 i b hb) (by positivity) (by linarith) hn0 hn ?_
    simp only [y1 _ b hb]
  choose! z z1 z2 z3 z4 z5 using hcol
  have hlist : ((List.range w).map fun b => (double.rounding ℝ).div (.fin 1) ((double.rounding ℝ).div (L.sum ((List.finRange n).map fun i =>
        (double.rounding ℝ).div (.fin 1) ((double.rounding ℝ).idHat ((double.rounding ℝ).idLog L
          ((double.rounding ℝ).idDist L (fun i f => .fin ((X (σ i) f : ℤ) : ℝ)) i)) (k1 + b)))) ((double.rounding ℝ).ofNat n)))
      = (List.range w).map fun b => .fin (z b) := List.map_congr_left fun b hb => z1 b (List.mem_range.1 hb)
  have hlen : (List.range w).length = w := List.length_range
  have hw0 : 0 < w := by omega
  have hn1 : (n : ℝ) ≤ 33554432 := by exact_mod_cast hn
  have hnu : n * u ≤ 1 / 1000 := by
    have := mul_le_mul hn1 h50 hu.le (by norm_num)
    norm_num at this ⊢
    linarith
  obtain ⟨r, r1, r2⟩ := mean_error (l := List.range w) (y := z) (v := fun b => 1 / ((∑ i, 1 / v i b) / n))
    (δ := 16 / 9 * (4 / 3 * η + 2 * u) + (8 / 3 * n + 8) * u)
    (s := L.sum ((List.range w).map fun b => .fin (z b))) (fun b hb => z2 b (List.mem_range.1 hb))
    (fun b hb => by
      have a1 := z4 b (List.mem_range.1 hb)
      have a2 := z5 b (List.mem_range.1 hb)
      exact ⟨le_trans (by norm_num) a1, a2.trans (by norm_num), Or.inr a1⟩)
    (fun b hb => z3 b (List.mem_range.1 hb)) (by positivity) (by linarith) (by rw [hlen]; exact hw0) (by rw [hlen]; omega)
    (hL.sum_some_order _ (by
      intro a ha
      obtain ⟨b, hb, rfl⟩ := List.mem_map.1 ha
      exact z2 b (List.mem_range.1 hb)))
  rw [hlen] at r1 r2
  refine ⟨r, ?_, ?_⟩
  · simp only [idMackay]
    rw [hlist, r1]
  · have hmean : ((List.range w).map fun b => 1 / ((∑ i, 1 / v i b) / n)).sum / (w : ℝ) = IntDim.Spec.mackay T k1 k2 := by
      unfold IntDim.Spec.mackay
      rw [hwr]
      congr 1
      rw [IntDim.sum_Icc (fun k => ((k : ℝ) - 2) / ((∑ i, IntDim.Spec.logRatios (T i) k) / n)) k1 k2 w (by omega),
        ← List.map_coe_finRange_eq_range, List.map_map, ← Fin.sum_univ_def]
      refine Finset.sum_congr rfl fun b _ => ?_
      have e : ∑ i, 1 / v i b = (∑ i, IntDim.Spec.logRatios (T i) (k1 + b)) / (((k1 + b : ℕ) : ℝ) - 2) := by
        rw [← Equiv.sum_comp σ (fun i => IntDim.Spec.logRatios (T i) (k1 + b)), Finset.sum_div]
        refine Finset.sum_congr rfl fun i _ => ?_
        rw [hv]
        beta_reduce
        rw [one_div_div]
      show 1 / ((∑ i, 1 / v i b) / n) = _
      rw [e, div_right_comm, one_div_div]
    rw [hmean] at r2
    have hM : 0 ≤ IntDim.Spec.mackay T k1 k2 := by
      rw [← hmean]
      refine div_nonneg (List.sum_nonneg ?_) (Nat.cast_nonneg _)
      intro x hx
      obtain ⟨b, hb, rfl⟩ := List.mem_map.1 hx
      exact le_trans (by norm_num) (z4 b (List.mem_range.1 hb))
    refine r2.trans (mul_le_mul_of_nonneg_right ?_ hM)
    rw [← hwr]
    have h3 : 64 / 27 * η ≤ 2850 * (k2 : ℝ) ^ 2 / s * u := by
      have : 2850 * (k2 : ℝ) ^ 2 / s * u = 2850 / 1200 * η := by
        rw [hη]
        ring
      rw [this]
      linarith
    have h4 : 0 ≤ n * u := by positivity
    linarith

/-- The hypotheses of `C313` hold for correctly rounded functions and four points. -/
example : ∃ r, (double.rounding ℝ).intrinsicDimensionMackay IdLib.rounded IntDim.LexSort.stable (fun i (_ : Fin 1) => ((points4 i : ℤ) : ℝ)) (3 : ℕ) (3 : ℕ) =
      .ok (.fin r) ∧
    |r - IntDim.Spec.mackay IntDim.line4T 3 3| ≤ (2850 * ((3 : ℕ) : ℝ) ^ 2 / (11 / 100) + 3 * (4 : ℕ) + 2 * ((3 : ℕ) + 1 - (3 : ℕ)) + 14) * 2 ^ (-53 : ℤ) *
      IntDim.Spec.mackay IntDim.line4T 3 3 :=
  C313 IdLib.rounded IdLib.rounded_near IntDim.LexSort.stable (fun i (_ : Fin 1) => points4 i) 100
    ⟨fun i f => by revert i; decide, by norm_num⟩ (by
      intro i j hij
      exact (by decide : Function.Injective points4) (congrFun hij 0)) IntDim.line4T
    (fun i => by rw [points4_line]; exact IntDim.line4_neighbours i) 3 3 le_rfl le_rfl (by norm_num) (by norm_num) (by norm_num) (11 / 100) (by
      intro i k h1 h2
      obtain rfl : k = 3 := le_antisymm h2 h1
      exact IntDim.line4_sums i) (by norm_num) (by norm_num)

end HubToolbox.Rounding
