import Verif.LS.Props

/-!
# C226, C227: order relations between Local Scaling, NICDM and the primary distances
-/

set_option autoImplicit false

namespace HubToolbox.LS

/-- Squared distance in units of the two radii. -/
noncomputable def ratio {n : ℕ} (x : Fin n → Fin n → ℝ) (r : Fin n → ℝ) (i j : Fin n) : ℝ :=
  if i = j then 0 else x i j ^ 2 / (r i * r j)

theorem radius_one {n : ℕ} {x : Fin n → Fin n → ℝ} {r : Fin n → ℝ}
    (hr : ∀ i, Spec.IsKthSmallest ((Spec.training n none).erase i) (x i) 1 (r i)) (i c : Fin n) (h : c ≠ i) : r i ≤ x i c := by
  have hb := (hr i).below
  by_contra hc
  push Not at hc
  have : c ∈ ((Spec.training n none).erase i).filter (fun j => x i j < r i) :=
    Finset.mem_filter.2 ⟨Finset.mem_erase.2 ⟨h, by simp [Spec.training]⟩, hc⟩
  have := Finset.card_pos.2 ⟨c, this⟩
  omega

theorem radii_pos {n k : ℕ} {x : Fin n → Fin n → ℝ} {r : Fin n → ℝ} (hx : ∀ i j, i ≠ j → 0 < x i j)
    (hr : ∀ i, Spec.IsKthSmallest ((Spec.training n none).erase i) (x i) k (r i)) (i : Fin n) : 0 < r i := by
  obtain ⟨j, hj, e⟩ := (hr i).attained
  rw [← e]
  exact hx _ _ (Finset.mem_erase.1 hj).1.symm

theorem training_card_pos {n : ℕ} (hn : 2 ≤ n) (i : Fin n) : 1 ≤ ((Spec.training n none).erase i).card := by
  have hT : Spec.training n none = Finset.univ := by simp [Spec.training]
  rw [hT, Finset.card_erase_of_mem (Finset.mem_univ i), Finset.card_univ, Fintype.card_fin]
  omega

/-- Both matrices are increasing functions of the same ratios. -/
theorem one_neighbour (w w' : World) {n : ℕ} (hn : 2 ≤ n) (x : Fin n → Fin n → ℝ) (hsym : ∀ i j, x i j = x j i)
    (hx : ∀ i j, i ≠ j → 0 < x i j) (nJobs nJobs' : ℤ) (hj : nJobs = -1 ∨ 1 ≤ nJobs) :
    ∃ (r : Fin n → ℝ) (g : ℝ), (∀ i, Spec.IsKthSmallest ((Spec.training n none).erase i) (x i) 1 (r i)) ∧ (∀ i, 0 < r i) ∧ 0 < g ∧
      localScaling w (.mat false n n (toXR x)) (1 : ℕ) "distance" none nJobs
        = .ok ⟨n, toXR fun i j => 1 - Real.exp (-(ratio x r i j))⟩ ∧
      nicdm w' (.mat false n n (toXR x)) (1 : ℕ) "distance" none nJobs' = .ok ⟨n, toXR fun i j => g * √(ratio x r i j)⟩ := by
  have hn0 : 0 < n := by omega
  obtain ⟨r, hr⟩ := C28_radii_exist x 1 le_rfl none (fun i => training_card_pos hn i)
  have hpos := radii_pos hx hr
  choose c hc hcr using fun i => (hr i).attained
  have hN : ∀ i, Spec.IsNearest ((Spec.training n none).erase i) (x i) 1 {c i} := fun i =>
    ⟨by simpa using hc i, by simp, fun a ha b hb _ => by
      rw [Finset.mem_singleton.1 ha, hcr i]
      exact radius_one hr i b (Finset.mem_erase.1 hb).1⟩
  have hmean : ∀ i, Spec.meanOver {c i} (x i) = r i := fun i => by simp [Spec.meanOver, hcr i]
  refine ⟨r, Spec.geometricMean r, hr, hpos, ?_, ?_, ?_⟩
  · exact Real.rpow_pos_of_pos (Finset.prod_pos fun i _ => hpos i) _
  · rw [C28_formula w x hsym 1 le_rfl none nJobs hj r hr hpos hn0]
    congr 2
    funext i j
    unfold toXR ratio Spec.localScaling
    by_cases h : i = j
    · simp [h]
    · simp [h]
  · rw [C32_formula w' x hsym 1 le_rfl none nJobs' (fun i => {c i}) hN (fun i => by rw [hmean]; exact hpos i) hn0]
    congr 2
    funext i j
    simp only [hmean]
    unfold toXR ratio Spec.nicdm
    by_cases h : i = j
    · simp [h]
    · rw [if_neg h]
      beta_reduce
      rw [if_neg h, Real.sqrt_div (sq_nonneg _), Real.sqrt_sq (hx i j h).le, mul_div_assoc]

theorem ratio_nonneg {n : ℕ} {x : Fin n → Fin n → ℝ} {r : Fin n → ℝ} (hpos : ∀ i, 0 < r i) (i j : Fin n) : 0 ≤ ratio x r i j := by
  unfold ratio
  split
  · exact le_rfl
  · exact div_nonneg (sq_nonneg _) (mul_pos (hpos i) (hpos j)).le

/-- C226: with one neighbour (`k=1`) Local Scaling and NICDM put all pairs of objects into the same order. -/
theorem C226 (w w' : World) {n : ℕ} (hn : 2 ≤ n) (x : Fin n → Fin n → ℝ) (hsym : ∀ i j, x i j = x j i)
    (hx : ∀ i j, i ≠ j → 0 < x i j) (nJobs nJobs' : ℤ) (hj : nJobs = -1 ∨ 1 ≤ nJobs) :
    ∃ L N : Fin n → Fin n → ℝ, localScaling w (.mat false n n (toXR x)) (1 : ℕ) "distance" none nJobs = .ok ⟨n, toXR L⟩ ∧
      nicdm w' (.mat false n n (toXR x)) (1 : ℕ) "distance" none nJobs' = .ok ⟨n, toXR N⟩ ∧
      ∀ a b c d, L a b ≤ L c d ↔ N a b ≤ N c d := by
  obtain ⟨r, g, -, hpos, hg, h1, h2⟩ := one_neighbour w w' hn x hsym hx nJobs nJobs' hj
  refine ⟨_, _, h1, h2, fun a b c d => ?_⟩
  have e1 : 1 - Real.exp (-(ratio x r a b)) ≤ 1 - Real.exp (-(ratio x r c d)) ↔ ratio x r a b ≤ ratio x r c d := by
    rw [sub_le_sub_iff_left, Real.exp_le_exp, neg_le_neg_iff]
  have e2 : g * √(ratio x r a b) ≤ g * √(ratio x r c d) ↔ ratio x r a b ≤ ratio x r c d := by
    rw [mul_le_mul_iff_right₀ hg, Real.sqrt_le_sqrt_iff (ratio_nonneg hpos c d)]
  exact e1.trans e2.symm

end HubToolbox.LS

namespace HubToolbox.Spec

/-- `i` and `j` are nearest neighbours of each other. -/
structure MutualNearest {n : ℕ} (x : Fin n → Fin n → ℝ) (i j : Fin n) : Prop where
  ne : i ≠ j
  left : ∀ c, c ≠ i → x i j ≤ x i c
  right : ∀ c, c ≠ j → x j i ≤ x j c

end HubToolbox.Spec

namespace HubToolbox.LS

theorem ratio_mutual {n : ℕ} {x : Fin n → Fin n → ℝ} {r : Fin n → ℝ} (hsym : ∀ i j, x i j = x j i) (hx : ∀ i j, i ≠ j → 0 < x i j)
    (hr : ∀ i, Spec.IsKthSmallest ((Spec.training n none).erase i) (x i) 1 (r i)) {i j : Fin n} (h : Spec.MutualNearest x i j)
    (c : Fin n) (hc : c ≠ i) : ratio x r i j ≤ ratio x r i c ∧ (x i j < x i c → ratio x r i j < ratio x r i c) := by
  have hpos := radii_pos hx hr
  have hi : r i = x i j := by
    refine le_antisymm (radius_one hr i j h.ne.symm) ?_
    obtain ⟨d, hd, e⟩ := (hr i).attained
    rw [← e]
    exact h.left d (Finset.mem_erase.1 hd).1
  have hjr : r j = x i j := by
    rw [hsym i j]
    refine le_antisymm (radius_one hr j i h.ne) ?_
    obtain ⟨d, hd, e⟩ := (hr j).attained
    rw [← e]
    exact h.right d (Finset.mem_erase.1 hd).1
  have h1 : ratio x r i j = 1 := by
    have := (hx i j h.ne).ne'
    rw [ratio, if_neg h.ne, hi, hjr]
    field_simp
  have h2 : r c ≤ x i c := by rw [hsym i c]; exact radius_one hr c i hc.symm
  have h3 : x i j ≤ x i c := h.left c hc
  rw [h1, ratio, if_neg hc.symm, hi]
  have hp := mul_pos (hx i j h.ne) (hpos c)
  constructor
  · rw [le_div_iff₀ hp, one_mul, sq]
    exact mul_le_mul h3 h2 (hpos c).le (hx i c hc.symm).le
  · intro h4
    rw [lt_div_iff₀ hp, one_mul, sq]
    exact mul_lt_mul h4 h2 (hpos c) (hx i c hc.symm).le

/-- C227 (what holds): with `k=1`, mutual nearest neighbours are nearest neighbours of each other also in Local Scaling and NICDM; an object
strictly farther away before is strictly farther away after. For larger `k` this fails, see `C227_violated`. -/
theorem C227_partial (w w' : World) {n : ℕ} (x : Fin n → Fin n → ℝ) (hsym : ∀ i j, x i j = x j i)
    (hx : ∀ i j, i ≠ j → 0 < x i j) (nJobs nJobs' : ℤ) (hj : nJobs = -1 ∨ 1 ≤ nJobs) (i j : Fin n) (h : Spec.MutualNearest x i j) :
    ∃ L N : Fin n → Fin n → ℝ, localScaling w (.mat false n n (toXR x)) (1 : ℕ) "distance" none nJobs = .ok ⟨n, toXR L⟩ ∧
      nicdm w' (.mat false n n (toXR x)) (1 : ℕ) "distance" none nJobs' = .ok ⟨n, toXR N⟩ ∧
      Spec.MutualNearest L i j ∧ Spec.MutualNearest N i j ∧
      ∀ c, c ≠ i → x i j < x i c → L i j < L i c ∧ N i j < N i c := by
  have hn : 2 ≤ n := by
    have := i.isLt; have := j.isLt
    have : i.val ≠ j.val := fun e => h.ne (Fin.ext e)
    omega
  obtain ⟨r, g, hr, hpos, hg, h1, h2⟩ := one_neighbour w w' hn x hsym hx nJobs nJobs' hj
  have h' : Spec.MutualNearest x j i := ⟨h.ne.symm, h.right, h.left⟩
  have A : ∀ {s t : ℝ}, s ≤ t → 1 - Real.exp (-s) ≤ 1 - Real.exp (-t) := fun {s t} hst => by
    rw [sub_le_sub_iff_left, Real.exp_le_exp, neg_le_neg_iff]; exact hst
  have B : ∀ {s t : ℝ}, s ≤ t → g * √s ≤ g * √t := fun {s t} hst => mul_le_mul_of_nonneg_left (Real.sqrt_le_sqrt hst) hg.le
  refine ⟨_, _, h1, h2, ⟨h.ne, ?_, ?_⟩, ⟨h.ne, ?_, ?_⟩, ?_⟩
  · exact fun c hc => A (ratio_mutual hsym hx hr h c hc).1
  · exact fun c hc => A (ratio_mutual hsym hx hr h' c hc).1
  · exact fun c hc => B (ratio_mutual hsym hx hr h c hc).1
  · exact fun c hc => B (ratio_mutual hsym hx hr h' c hc).1
  · intro c hc hlt
    have h3 := (ratio_mutual hsym hx hr h c hc).2 hlt
    constructor
    · beta_reduce
      rw [sub_lt_sub_iff_left, Real.exp_lt_exp, neg_lt_neg_iff]
      exact h3
    · exact mul_lt_mul_of_pos_left (Real.sqrt_lt_sqrt (ratio_nonneg hpos _ _) h3) hg

/-- Four points on a line. -/
def line4 : Fin 4 → Fin 4 → ℤ := fun i j => |(![-21, 0, 20, 42] : Fin 4 → ℤ) i - (![-21, 0, 20, 42] : Fin 4 → ℤ) j|

theorem kth_int {n k : ℕ} (x : Fin n → Fin n → ℤ) (r : Fin n → ℤ)
    (h : ∀ i, (∃ j ∈ Finset.univ.erase i, x i j = r i) ∧ ((Finset.univ.erase i).filter (fun j => x i j < r i)).card < k ∧
      k ≤ ((Finset.univ.erase i).filter (fun j => x i j ≤ r i)).card) (i : Fin n) :
    Spec.IsKthSmallest ((Spec.training n none).erase i) (fun j => (x i j : ℝ)) k (r i) := by
  have hT : Spec.training n none = Finset.univ := by simp [Spec.training]
  obtain ⟨⟨j, hj, e⟩, h2, h3⟩ := h i
  rw [hT]
  refine ⟨⟨j, hj, by rw [e]⟩, ?_, ?_⟩
  · simpa only [Int.cast_lt] using h2
  · simpa only [Int.cast_le] using h3

/-- C227 is violated for `k=2`: on a line, two points are nearest neighbours of each other (strictly), but after Local Scaling, and after
NICDM, one of them has another nearest neighbour. -/
theorem C227_violated (w w' : World) :
    (∀ c, c ≠ 2 → c ≠ 1 → line4 2 1 < line4 2 c) ∧ (∀ c, c ≠ 1 → c ≠ 2 → line4 1 2 < line4 1 c) ∧
    ∃ L N : Fin 4 → Fin 4 → ℝ, localScaling w (.mat false 4 4 (toXR fun i j => (line4 i j : ℝ))) (2 : ℕ) "distance" none 1 = .ok ⟨4, toXR L⟩ ∧
      nicdm w' (.mat false 4 4 (toXR fun i j => (line4 i j : ℝ))) (2 : ℕ) "distance" none 1 = .ok ⟨4, toXR N⟩ ∧
      L 2 3 < L 2 1 ∧ N 2 3 < N 2 1 := by
  refine ⟨by decide, by decide, ?_⟩
  have hsym : ∀ i j, ((line4 i j : ℤ) : ℝ) = (line4 j i : ℤ) := fun i j => by
    rw [show line4 i j = line4 j i from abs_sub_comm _ _]
  have hr : ∀ i, Spec.IsKthSmallest ((Spec.training 4 none).erase i) (fun j => (line4 i j : ℝ)) 2
      ((![41, 21, 22, 42] : Fin 4 → ℤ) i : ℝ) := kth_int line4 ![41, 21, 22, 42] (by decide)
  have hT : Spec.training 4 none = Finset.univ := by simp [Spec.training]
  have hN : ∀ i, Spec.IsNearest ((Spec.training 4 none).erase i) (fun j => (line4 i j : ℝ)) 2
      ((![{1, 2}, {0, 2}, {1, 3}, {1, 2}] : Fin 4 → Finset (Fin 4)) i) := fun i => by
    rw [hT]
    refine ⟨?_, ?_, fun a ha b hb hb' => ?_⟩
    · revert i; decide
    · revert i; decide
    · rw [Int.cast_le]
      revert i; revert a b
      decide
  have m : ∀ i, Spec.meanOver ((![{1, 2}, {0, 2}, {1, 3}, {1, 2}] : Fin 4 → Finset (Fin 4)) i) (fun j => (line4 i j : ℝ))
      = (![31, 41 / 2, 21, 32] : Fin 4 → ℝ) i := fun i => by
    fin_cases i <;> simp [Spec.meanOver, line4] <;> norm_num
  have mpos : ∀ i, 0 < (![31, 41 / 2, 21, 32] : Fin 4 → ℝ) i := fun i => by fin_cases i <;> simp
  refine ⟨_, _, C28_formula w _ hsym 2 (by norm_num) none 1 (Or.inr le_rfl) _ hr (fun i => by fin_cases i <;> simp) (by norm_num),
    C32_formula w' _ hsym 2 (by norm_num) none 1 _ hN (fun i => by rw [m]; exact mpos i) (by norm_num), ?_, ?_⟩
  · rw [if_neg (by decide), if_neg (by decide)]
    unfold Spec.localScaling
    rw [sub_lt_sub_iff_left, Real.exp_lt_exp, neg_lt_neg_iff]
    simp [line4]
    norm_num
  · simp only [m]
    rw [if_neg (by decide), if_neg (by decide)]
    unfold Spec.nicdm
    have hg : 0 < Spec.geometricMean (![31, 41 / 2, 21, 32] : Fin 4 → ℝ) :=
      Real.rpow_pos_of_pos (Finset.prod_pos fun i _ => mpos i) _
    rw [mul_div_assoc, mul_div_assoc]
    refine mul_lt_mul_of_pos_left ?_ hg
    have e1 : ((line4 2 3 : ℤ) : ℝ) = 22 := by rw [show line4 2 3 = 22 by decide]; norm_num
    have e2 : ((line4 2 1 : ℤ) : ℝ) = 20 := by rw [show line4 2 1 = 20 by decide]; norm_num
    have e3 : (![31, 41 / 2, 21, 32] : Fin 4 → ℝ) 2 * (![31, 41 / 2, 21, 32] : Fin 4 → ℝ) 3 = 672 := by simp; norm_num
    have e4 : (![31, 41 / 2, 21, 32] : Fin 4 → ℝ) 2 * (![31, 41 / 2, 21, 32] : Fin 4 → ℝ) 1 = 861 / 2 := by simp; norm_num
    rw [e1, e2, e3, e4, div_lt_div_iff₀ (Real.sqrt_pos.2 (by norm_num)) (Real.sqrt_pos.2 (by norm_num))]
    refine lt_of_pow_lt_pow_left₀ 2 (by positivity) ?_
    rw [mul_pow, mul_pow, Real.sq_sqrt (by norm_num), Real.sq_sqrt (by norm_num)]
    norm_num

/-- The hypotheses of `C226` and `C227_partial` hold for these four points. -/
example : (∀ i j, i ≠ j → (0 : ℝ) < (line4 i j : ℝ)) ∧ Spec.MutualNearest (fun i j => (line4 i j : ℝ)) 2 1 := by
  refine ⟨fun i j h => ?_, by decide, fun c hc => ?_, fun c hc => ?_⟩
  · rw [Int.cast_pos]; revert i j; decide
  · rw [Int.cast_le]; revert c; decide
  · rw [Int.cast_le]; revert c; decide

end HubToolbox.LS
