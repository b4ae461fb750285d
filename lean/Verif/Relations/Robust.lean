import Verif.Relations.Monotone
import Verif.Relations.Stable

/-!
# Measurement errors of the distances

C298: if every distance is known up to a factor `q`, Local Scaling and NICDM of the measured distances are close to Local Scaling and NICDM of the
true distances, although the neighbours, the radii and their geometric mean may all change: NICDM by a factor of at most `q³`, the exponents of Local
Scaling by a factor of at most `q⁴`, hence Local Scaling itself by at most `q⁴ - 1`. Experiments give the same results if the secondary distances of
each object are farther apart than that.
-/

set_option autoImplicit false

namespace HubToolbox.Spec

/-- The distances between different objects agree up to a factor `q`. -/
def UpTo (q : ℝ) {n : ℕ} (x y : Fin n → Fin n → ℝ) : Prop := ∀ i j, i ≠ j → x i j ≤ q * y i j ∧ y i j ≤ q * x i j

end HubToolbox.Spec

namespace HubToolbox.Relations

open HubToolbox

/-- Order statistics of the distances of an object agree up to the factor. -/
theorem radius_upTo {n k : ℕ} {q : ℝ} (hq : 0 < q) {x y : Fin n → Fin n → ℝ} (h : ∀ i j, i ≠ j → y i j ≤ q * x i j) (S : Finset (Fin n)) (i : Fin n)
    {r s : ℝ} (hr : Spec.IsKthSmallest (S.erase i) (x i) k r) (hs : Spec.IsKthSmallest (S.erase i) (y i) k s) : s ≤ q * r :=
  LS.kthSmallest_mono hs (LS.kthSmallest_scale hq hr) fun j hj => h i j (Finset.ne_of_mem_erase hj).symm

/-- Mean distances to the nearest neighbours agree up to the factor. -/
theorem mean_upTo {n k : ℕ} {q : ℝ} (hq : 0 < q) {x y : Fin n → Fin n → ℝ} (h : ∀ i j, i ≠ j → y i j ≤ q * x i j) (S : Finset (Fin n)) (i : Fin n)
    {N N' : Finset (Fin n)} (hN : Spec.IsNearest (S.erase i) (x i) k N) (hN' : Spec.IsNearest (S.erase i) (y i) k N') :
    Spec.meanOver N' (y i) ≤ q * Spec.meanOver N (x i) := by
  have hs := LS.nearest_scale hq hN
  rw [← hs.2]
  exact LS.meanOver_mono hN' hs.1 fun j hj => h i j (Finset.ne_of_mem_erase hj).symm

/-- Geometric means agree up to the factor. -/
theorem geometricMean_upTo {n : ℕ} (hn : 0 < n) {q : ℝ} (hq : 0 < q) {r s : Fin n → ℝ} (hr : ∀ i, 0 < r i) (hs : ∀ i, 0 < s i)
    (h : ∀ i, s i ≤ q * r i) : Spec.geometricMean s ≤ q * Spec.geometricMean r := by
  unfold Spec.geometricMean
  have h1 : (∏ i, s i) ^ (1 / (n : ℝ)) ≤ (∏ i, q * r i) ^ (1 / (n : ℝ)) :=
    Real.rpow_le_rpow (Finset.prod_nonneg fun i _ => (hs i).le) (Finset.prod_le_prod (fun i _ => (hs i).le) fun i _ => h i) (by positivity)
  refine h1.trans_eq ?_
  rw [Finset.prod_mul_distrib, Finset.prod_const, Finset.card_univ, Fintype.card_fin,
    Real.mul_rpow (by positivity) (Finset.prod_nonneg fun i _ => (hr i).le), ← Real.rpow_natCast, ← Real.rpow_mul hq.le,
    mul_one_div_cancel (by exact_mod_cast hn.ne'), Real.rpow_one]

/-- The formula of NICDM. -/
theorem nicdm_upTo {q g g' d d' a a' b b' : ℝ} (hq : 0 < q) (hg : 0 < g) (hd : 0 < d) (ha : 0 < a) (hb : 0 < b) (ha' : 0 < a') (hb' : 0 < b')
    (hd' : 0 < d') (h1 : g' ≤ q * g) (h2 : d' ≤ q * d) (h3 : a ≤ q * a') (h4 : b ≤ q * b') : Spec.nicdm g' d' a' b' ≤ q ^ 3 * Spec.nicdm g d a b := by
  unfold Spec.nicdm
  have hs : √(a * b) ≤ q * √(a' * b') := by
    rw [Real.sqrt_le_left (by positivity), mul_pow, Real.sq_sqrt (by positivity)]
    calc a * b ≤ q * a' * (q * b') := mul_le_mul h3 h4 hb.le (by positivity)
      _ = q ^ 2 * (a' * b') := by ring
  have p1 : 0 < √(a * b) := Real.sqrt_pos.2 (by positivity)
  have p2 : 0 < √(a' * b') := Real.sqrt_pos.2 (by positivity)
  rw [← mul_div_assoc, div_le_div_iff₀ p2 p1]
  calc g' * d' * √(a * b) ≤ q * g * (q * d) * (q * √(a' * b')) :=
        mul_le_mul (mul_le_mul h1 h2 hd'.le (by positivity)) hs p1.le (by positivity)
    _ = q ^ 3 * (g * d) * √(a' * b') := by ring

/-- The exponent of Local Scaling. -/
theorem exponent_upTo {q d d' a a' b b' : ℝ} (hq : 0 < q) (ha : 0 < a) (hb : 0 < b) (ha' : 0 < a') (hb' : 0 < b') (hd' : 0 ≤ d')
    (h2 : d' ≤ q * d) (h3 : a ≤ q * a') (h4 : b ≤ q * b') : d' ^ 2 / (a' * b') ≤ q ^ 4 * (d ^ 2 / (a * b)) := by
  rw [← mul_div_assoc, div_le_div_iff₀ (by positivity) (by positivity)]
  have e1 : d' ^ 2 ≤ (q * d) ^ 2 := pow_le_pow_left₀ hd' h2 2
  have e2 : a * b ≤ q * a' * (q * b') := mul_le_mul h3 h4 hb.le (by positivity)
  calc d' ^ 2 * (a * b) ≤ (q * d) ^ 2 * (q * a' * (q * b')) := mul_le_mul e1 e2 (by positivity) (by positivity)
    _ = q ^ 4 * d ^ 2 * (a' * b') := by ring

/-- Exponentials of exponents that agree up to a factor. -/
theorem exp_upTo {c t s : ℝ} (hc : 1 ≤ c) (ht : 0 ≤ t) (h : s ≤ c * t) : Real.exp (-t) - Real.exp (-s) ≤ c - 1 := by
  have h1 : Real.exp (-(c * t)) ≤ Real.exp (-s) := Real.exp_le_exp.2 (neg_le_neg h)
  have h2 : Real.exp (-(c * t)) = Real.exp (-t) * Real.exp (-((c - 1) * t)) := by rw [← Real.exp_add]; congr 1; ring
  have h3 : 1 - (c - 1) * t ≤ Real.exp (-((c - 1) * t)) := by
    have := Real.add_one_le_exp (-((c - 1) * t)); linarith
  have h4 : 0 < Real.exp (-t) := Real.exp_pos _
  have h5 : t * Real.exp (-t) ≤ 1 := by
    have e : Real.exp (-t) * Real.exp t = 1 := by rw [← Real.exp_add]; simp
    have := mul_le_mul_of_nonneg_left ((by linarith [Real.add_one_le_exp t] : t ≤ Real.exp t)) h4.le
    linarith
  have h6 : Real.exp (-t) * (1 - (c - 1) * t) ≤ Real.exp (-(c * t)) := by rw [h2]; exact mul_le_mul_of_nonneg_left h3 h4.le
  have h7 : (c - 1) * (t * Real.exp (-t)) ≤ (c - 1) * 1 := mul_le_mul_of_nonneg_left h5 (by linarith)
  have h8 : Real.exp (-t) * (1 - (c - 1) * t) = Real.exp (-t) - (c - 1) * (t * Real.exp (-t)) := by ring
  linarith

theorem localScaling_upTo {q d d' a a' b b' : ℝ} (hq : 1 ≤ q) (ha : 0 < a) (hb : 0 < b) (ha' : 0 < a') (hb' : 0 < b') (hd' : 0 ≤ d')
    (h2 : d' ≤ q * d) (h3 : a ≤ q * a') (h4 : b ≤ q * b') : Spec.localScaling d' a' b' - Spec.localScaling d a b ≤ q ^ 4 - 1 := by
  have h := exponent_upTo (by linarith) ha hb ha' hb' hd' h2 h3 h4
  have := exp_upTo (one_le_pow₀ hq (n := 4)) (by positivity : 0 ≤ d ^ 2 / (a * b)) h
  unfold Spec.localScaling
  linarith

/-- **C298** (Local Scaling). -/
theorem C298_local_scaling (w w' : LS.World) {n : ℕ} (hn : 0 < n) (x y : Fin n → Fin n → ℝ) (q : ℝ) (hq : 1 ≤ q) (hxy : Spec.UpTo q x y)
    (hx : ∀ i j, x i j = x j i) (hy : ∀ i j, y i j = y j i) (hx0 : ∀ i j, i ≠ j → 0 < x i j) (hy0 : ∀ i j, i ≠ j → 0 < y i j) (k : ℕ) (hk : 1 ≤ k)
    (test : Option (List ℤ)) (hcard : ∀ i, k ≤ ((Spec.training n test).erase i).card) (nJobs nJobs' : ℤ) (hj : nJobs = -1 ∨ 1 ≤ nJobs)
    (hj' : nJobs' = -1 ∨ 1 ≤ nJobs') :
    ∃ M M' : Fin n → Fin n → ℝ, LS.localScaling w (.mat false n n (LS.toXR x)) k "distance" test nJobs = .ok ⟨n, LS.toXR M⟩ ∧
      LS.localScaling w' (.mat false n n (LS.toXR y)) k "distance" test nJobs' = .ok ⟨n, LS.toXR M'⟩ ∧ (∀ i j, |M' i j - M i j| ≤ q ^ 4 - 1) ∧
      ((∀ i a b, a ≠ i → b ≠ i → a ≠ b → 2 * (q ^ 4 - 1) < |M i a - M i b|) →
        Spec.SameExperiments (LS.toXR M) (LS.toXR M')) := by
  obtain ⟨r, hr⟩ := LS.C28_radii_exist x k hk test hcard
  obtain ⟨s, hs⟩ := LS.C28_radii_exist y k hk test hcard
  have hr0 : ∀ i, 0 < r i := fun i => by
    obtain ⟨j, hj, e⟩ := (hr i).attained
    rw [← e]; exact hx0 i j (Finset.ne_of_mem_erase hj).symm
  have hs0 : ∀ i, 0 < s i := fun i => by
    obtain ⟨j, hj, e⟩ := (hs i).attained
    rw [← e]; exact hy0 i j (Finset.ne_of_mem_erase hj).symm
  have hq0 : 0 < q := by linarith
  have c1 : ∀ i, s i ≤ q * r i := fun i => radius_upTo hq0 (fun i j h => (hxy i j h).2) _ i (hr i) (hs i)
  have c2 : ∀ i, r i ≤ q * s i := fun i => radius_upTo hq0 (fun i j h => (hxy i j h).1) _ i (hs i) (hr i)
  have hmain : ∀ i j, |(if i = j then 0 else Spec.localScaling (y i j) (s i) (s j)) - (if i = j then 0 else Spec.localScaling (x i j) (r i) (r j))| ≤
      q ^ 4 - 1 := by
    intro i j
    split_ifs with h
    · have := one_le_pow₀ hq (n := 4)
      simpa using this
    · rw [abs_le]
      have b1 := localScaling_upTo hq (hr0 i) (hr0 j) (hs0 i) (hs0 j) (hy0 i j h).le (hxy i j h).2 (c2 i) (c2 j)
      have b2 := localScaling_upTo hq (hs0 i) (hs0 j) (hr0 i) (hr0 j) (hx0 i j h).le (hxy i j h).1 (c1 i) (c1 j)
      constructor <;> linarith
  refine ⟨_, _, LS.C28_formula w x hx k hk test nJobs hj r hr hr0 hn, LS.C28_formula w' y hy k hk test nJobs' hj' s hs hs0 hn, hmain, fun hgap => ?_⟩
  refine gap_same fun i a b ha hb hab => ?_
  have e1 := abs_le.1 (hmain i a)
  have e2 := abs_le.1 (hmain i b)
  have hg := hgap i a b ha hb hab
  have hp := one_le_pow₀ hq (n := 4)
  rcases lt_abs.1 hg with h1 | h1
  · exact Or.inr ⟨by linarith, by linarith [e1.1, e2.2]⟩
  · exact Or.inl ⟨by linarith, by linarith [e1.2, e2.1]⟩

/-- Secondary distances that agree up to a factor `c` order the same way what is farther apart than `c²`. -/
theorem upTo_same {n : ℕ} {c : ℝ} (hc : 1 ≤ c) {M M' : Fin n → Fin n → ℝ} (h0 : ∀ i j, i ≠ j → 0 < M i j) (h : Spec.UpTo c M M')
    (hgap : ∀ i a b, a ≠ i → b ≠ i → a ≠ b → c ^ 2 * M i a < M i b ∨ c ^ 2 * M i b < M i a) : Spec.SameExperiments (LS.toXR M) (LS.toXR M') := by
  refine gap_same fun i a b ha hb hab => ?_
  have key : ∀ a b, a ≠ i → b ≠ i → c ^ 2 * M i a < M i b → M i a < M i b ∧ M' i a < M' i b := fun a b ha hb hg => by
    have h1 := (h i a ha.symm).2
    have h2 := (h i b hb.symm).1
    refine ⟨lt_of_le_of_lt (le_mul_of_one_le_left (h0 i a ha.symm).le (one_le_pow₀ hc)) hg,
      lt_of_le_of_lt h1 (lt_of_mul_lt_mul_left ?_ (by linarith : 0 ≤ c))⟩
    calc c * (c * M i a) = c ^ 2 * M i a := by ring
      _ < M i b := hg
      _ ≤ _ := h2
  exact (hgap i a b ha hb hab).imp (key a b ha hb) (key b a hb ha)

/-- The entries of a result. -/
theorem ok_entries {n : ℕ} {e : Py (Σ n : ℕ, Fin n → Fin n → XR ℝ)} {M M' : Fin n → Fin n → ℝ} (h : e = .ok ⟨n, LS.toXR M⟩) (h' : e = .ok ⟨n, LS.toXR M'⟩) (i j : Fin n) :
    M i j = M' i j := by
  rw [h] at h'
  injection h' with h'
  injection h' with _ h'
  have := congrFun (congrFun h' i) j
  exact XR.fin.inj this

/-- **C298** (NICDM). -/
theorem C298_nicdm (w w' : LS.World) {n : ℕ} (hn : 0 < n) (x y : Fin n → Fin n → ℝ) (q : ℝ) (hq : 1 ≤ q) (hxy : Spec.UpTo q x y)
    (hx : ∀ i j, x i j = x j i) (hy : ∀ i j, y i j = y j i) (hx0 : ∀ i j, i ≠ j → 0 < x i j) (hy0 : ∀ i j, i ≠ j → 0 < y i j) (k : ℕ) (hk : 1 ≤ k)
    (test : Option (List ℤ)) (hcard : ∀ i, k ≤ ((Spec.training n test).erase i).card) (nJobs nJobs' : ℤ) :
    ∃ M M' : Fin n → Fin n → ℝ, LS.nicdm w (.mat false n n (LS.toXR x)) k "distance" test nJobs = .ok ⟨n, LS.toXR M⟩ ∧
      LS.nicdm w' (.mat false n n (LS.toXR y)) k "distance" test nJobs' = .ok ⟨n, LS.toXR M'⟩ ∧ Spec.UpTo (q ^ 3) M M' ∧
      ((∀ i a b, a ≠ i → b ≠ i → a ≠ b → q ^ 6 * M i a < M i b ∨ q ^ 6 * M i b < M i a) →
        Spec.SameExperiments (LS.toXR M) (LS.toXR M')) := by
  choose N hN using fun i => LS.C32_nearest_exist (x i) ((Spec.training n test).erase i) k (hcard i)
  choose N' hN' using fun i => LS.C32_nearest_exist (y i) ((Spec.training n test).erase i) k (hcard i)
  have hpos : ∀ (z : Fin n → Fin n → ℝ), (∀ i j, i ≠ j → 0 < z i j) → ∀ (N : Fin n → Finset (Fin n)),
      (∀ i, Spec.IsNearest ((Spec.training n test).erase i) (z i) k (N i)) → ∀ i, 0 < Spec.meanOver (N i) (z i) := by
    intro z hz N hN i
    have hc : 0 < (N i).card := by rw [(hN i).card]; exact hk
    unfold Spec.meanOver
    exact div_pos (Finset.sum_pos (fun j hj => hz i j (Finset.ne_of_mem_erase ((hN i).sub hj)).symm) (Finset.card_pos.1 hc)) (by exact_mod_cast hc)
  have hr0 := hpos x hx0 N hN
  have hs0 := hpos y hy0 N' hN'
  have hq0 : 0 < q := by linarith
  have c1 : ∀ i, Spec.meanOver (N' i) (y i) ≤ q * Spec.meanOver (N i) (x i) := fun i =>
    mean_upTo hq0 (fun i j h => (hxy i j h).2) _ i (hN i) (hN' i)
  have c2 : ∀ i, Spec.meanOver (N i) (x i) ≤ q * Spec.meanOver (N' i) (y i) := fun i =>
    mean_upTo hq0 (fun i j h => (hxy i j h).1) _ i (hN' i) (hN i)
  have g1 := geometricMean_upTo hn hq0 hr0 hs0 c1
  have g2 := geometricMean_upTo hn hq0 hs0 hr0 c2
  have p1 := LS.geometricMean_pos _ hr0
  have p2 := LS.geometricMean_pos _ hs0
  have hM0 : ∀ i j, i ≠ j → 0 < (if i = j then 0 else Spec.nicdm (Spec.geometricMean (fun i => Spec.meanOver (N i) (x i))) (x i j)
      (Spec.meanOver (N i) (x i)) (Spec.meanOver (N j) (x j))) := by
    intro i j h
    rw [if_neg h]
    have := hx0 i j h
    have := hr0 i
    have := hr0 j
    unfold Spec.nicdm
    positivity
  have hmain : Spec.UpTo (q ^ 3)
      (fun i j => if i = j then 0 else Spec.nicdm (Spec.geometricMean (fun i => Spec.meanOver (N i) (x i))) (x i j)
        (Spec.meanOver (N i) (x i)) (Spec.meanOver (N j) (x j)))
      (fun i j => if i = j then 0 else Spec.nicdm (Spec.geometricMean (fun i => Spec.meanOver (N' i) (y i))) (y i j)
        (Spec.meanOver (N' i) (y i)) (Spec.meanOver (N' j) (y j))) := by
    intro i j h
    beta_reduce
    rw [if_neg h, if_neg h]
    exact ⟨nicdm_upTo hq0 p2 (hy0 i j h) (hs0 i) (hs0 j) (hr0 i) (hr0 j) (hx0 i j h) g2 (hxy i j h).1 (c1 i) (c1 j),
      nicdm_upTo hq0 p1 (hx0 i j h) (hr0 i) (hr0 j) (hs0 i) (hs0 j) (hy0 i j h) g1 (hxy i j h).2 (c2 i) (c2 j)⟩
  refine ⟨_, _, LS.C32_formula w x hx k hk test nJobs N hN hr0 hn, LS.C32_formula w' y hy k hk test nJobs' N' hN' hs0 hn, hmain, fun hgap => ?_⟩
  refine upTo_same (one_le_pow₀ hq) hM0 hmain fun i a b ha hb hab => ?_
  rw [← pow_mul]
  exact hgap i a b ha hb hab

/-! ### Instances -/

/-- The distances of `line3`, measured with errors of at most one percent. -/
noncomputable def measured3 : Fin 3 → Fin 3 → ℝ := ![![0, 101 / 100, 3], ![101 / 100, 0, 199 / 100], ![3, 199 / 100, 0]]

theorem measured3_upTo : Spec.UpTo (101 / 100) LS.line3 measured3 := by
  intro i j h
  fin_cases i <;> fin_cases j <;> first | exact absurd rfl h | (norm_num [LS.line3, measured3])

theorem measured3_symm (i j : Fin 3) : measured3 i j = measured3 j i := by
  fin_cases i <;> fin_cases j <;> rfl

theorem measured3_pos (i j : Fin 3) (h : i ≠ j) : 0 < measured3 i j := by
  fin_cases i <;> fin_cases j <;> first | exact absurd rfl h | (norm_num [measured3])

theorem line3_off_pos (i j : Fin 3) (h : i ≠ j) : 0 < LS.line3 i j := by
  fin_cases i <;> fin_cases j <;> first | exact absurd rfl h | (norm_num [LS.line3])

theorem training3_card (i : Fin 3) : 1 ≤ ((Spec.training 3 none).erase i).card := by
  rw [← (LS.line3_nearest i).card]; exact Finset.card_le_card (LS.line3_nearest i).sub

example (nJobs : ℤ) (hj : nJobs = -1 ∨ 1 ≤ nJobs) := C298_local_scaling LS.stdWorld LS.stdWorld (by norm_num) LS.line3 measured3 (101 / 100) (by norm_num)
  measured3_upTo LS.line3_symm measured3_symm line3_off_pos measured3_pos 1 le_rfl none training3_card nJobs nJobs hj hj

/-- The secondary distances of `line3` differ by more than a factor of `5/4`. -/
theorem line3_quarter (i a b : Fin 3) (ha : a ≠ i) (hb : b ≠ i) (hab : a ≠ b) (g : ℝ) (hg : 0 < g) :
    let S : Fin 3 → Fin 3 → ℝ := fun i j => Spec.nicdm g (LS.line3 i j) (Spec.meanOver ((![{1}, {0}, {1}] : Fin 3 → Finset (Fin 3)) i) (LS.line3 i))
      (Spec.meanOver ((![{1}, {0}, {1}] : Fin 3 → Finset (Fin 3)) j) (LS.line3 j))
    5 / 4 * S i a < S i b ∨ 5 / 4 * S i b < S i a := by
  intro S
  have q1 : 7 / 5 < √(2 : ℝ) := by rw [Real.lt_sqrt (by norm_num)]; norm_num
  have q2 : √(2 : ℝ) < 3 / 2 := by rw [Real.sqrt_lt' (by norm_num)]; norm_num
  have q3 : √(2 : ℝ) * √2 = 2 := Real.mul_self_sqrt (by norm_num)
  have hS : ∀ i j, S i j = g * (LS.line3 i j / √((![1, 1, 2] : Fin 3 → ℝ) i * (![1, 1, 2] : Fin 3 → ℝ) j)) := by
    intro i j
    show Spec.nicdm _ _ _ _ = _
    unfold Spec.nicdm
    rw [mul_div_assoc]
    congr 2
    fin_cases i <;> fin_cases j <;> norm_num [Spec.meanOver, LS.line3]
  have key : ∀ s t : ℝ, 0 ≤ s → 5 / 4 * s < t → 5 / 4 * (g * s) < g * t := by
    intro s t hs hst
    rw [mul_left_comm]
    exact mul_lt_mul_of_pos_left hst hg
  have r1 : (2 : ℝ) / √2 = √2 := by rw [div_eq_iff (by positivity), q3]
  have r2 : (3 : ℝ) / √2 = 3 / 2 * √2 := by rw [div_eq_iff (by positivity)]; linarith
  rw [hS, hS]
  fin_cases i <;> fin_cases a <;> first
    | exact absurd rfl ha
    | (fin_cases b <;> first
        | exact absurd rfl hb
        | exact absurd rfl hab
        | (refine Or.inl (key _ _ ?_ ?_) <;> norm_num [LS.line3, r1, r2] <;> (first | positivity | linarith); done)
        | (refine Or.inr (key _ _ ?_ ?_) <;> norm_num [LS.line3, r1, r2] <;> (first | positivity | linarith); done))

theorem nicdm_pos {g d a b : ℝ} (hg : 0 < g) (hd : 0 < d) (ha : 0 < a) (hb : 0 < b) : 0 < Spec.nicdm g d a b := by
  unfold Spec.nicdm; positivity

/-- Errors of one percent do not change the experiments. -/
example (nJobs : ℤ) : ∃ M M' : Fin 3 → Fin 3 → ℝ, LS.nicdm LS.stdWorld (.mat false 3 3 (LS.toXR LS.line3)) 1 "distance" none nJobs = .ok ⟨3, LS.toXR M⟩ ∧
    LS.nicdm LS.stdWorld (.mat false 3 3 (LS.toXR measured3)) 1 "distance" none nJobs = .ok ⟨3, LS.toXR M'⟩ ∧
    Spec.SameExperiments (LS.toXR M) (LS.toXR M') := by
  obtain ⟨M, M', h1, h2, -, h3⟩ := C298_nicdm LS.stdWorld LS.stdWorld (by norm_num) LS.line3 measured3 (101 / 100) (by norm_num)
    measured3_upTo LS.line3_symm measured3_symm line3_off_pos measured3_pos 1 le_rfl none training3_card nJobs nJobs
  refine ⟨M, M', h1, h2, h3 fun i a b ha hb hab => ?_⟩
  have hf := LS.C32_formula LS.stdWorld LS.line3 LS.line3_symm 1 le_rfl none nJobs _ LS.line3_nearest LS.line3_mean (by norm_num)
  have hM := ok_entries h1 hf
  have hg := LS.geometricMean_pos _ LS.line3_mean
  rw [hM i a, hM i b, if_neg ha.symm, if_neg hb.symm]
  have p : ∀ j, j ≠ i → _ := fun j hj => nicdm_pos hg (line3_off_pos i j (Ne.symm hj)) (LS.line3_mean i) (LS.line3_mean j)
  have hq : ((101 : ℝ) / 100) ^ 6 ≤ 5 / 4 := by norm_num
  exact (line3_quarter i a b ha hb hab _ hg).imp (fun h => (mul_le_mul_of_nonneg_right hq (p a ha).le).trans_lt h)
    (fun h => (mul_le_mul_of_nonneg_right hq (p b hb).le).trans_lt h)

end HubToolbox.Relations
