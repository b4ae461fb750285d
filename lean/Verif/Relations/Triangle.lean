import Verif.MPEmp.Props
import Verif.LS.Examples
import Verif.SNN.Props
import Verif.SNN.SimhubProps
import Mathlib.Analysis.SpecialFunctions.Exponential

/-!
# The triangle inequality of secondary distances

C204: shared nearest neighbour distances and `simhub` distances (without labels) satisfy the triangle inequality, whatever
the primary distances are. Empirical Mutual Proximity, Local Scaling and NICDM do not, even if the primary distances are a
metric; for Mutual Proximity no constant repairs it.
-/

set_option autoImplicit false

namespace HubToolbox.Spec

variable {K : Type} [Field K] [LinearOrder K] {n : ℕ}

/-- Going by way of a third object is never shorter. -/
def Triangle (M : Fin n → Fin n → K) : Prop := ∀ i j l, M i l ≤ M i j + M j l

/-- The axioms of a metric. -/
structure IsMetricOn (d : Fin n → Fin n → K) : Prop where
  self : ∀ i, d i i = 0
  pos : ∀ i j, i ≠ j → 0 < d i j
  symm : ∀ i j, d i j = d j i
  triangle : Triangle d

end HubToolbox.Spec

namespace HubToolbox.SNN

open HubToolbox

/-- Weighted overlaps: two overlaps with the middle set hardly exceed the middle set. -/
theorem overlap_sum {ι R : Type} [DecidableEq ι] [AddCommMonoid R] [PartialOrder R] [IsOrderedAddMonoid R]
    (A B C : Finset ι) (f : ι → R) (hf : ∀ x, 0 ≤ f x) :
    ∑ x ∈ A ∩ B, f x + ∑ x ∈ B ∩ C, f x ≤ ∑ x ∈ B, f x + ∑ x ∈ A ∩ C, f x := by
  rw [← Finset.sum_union_inter]
  apply add_le_add
  · apply Finset.sum_le_sum_of_subset_of_nonneg
    · intro x hx
      simp only [Finset.mem_union, Finset.mem_inter] at hx
      tauto
    · exact fun x _ _ => hf x
  · apply Finset.sum_le_sum_of_subset_of_nonneg
    · intro x hx
      simp only [Finset.mem_inter] at hx ⊢
      tauto
    · exact fun x _ _ => hf x

/-- A matrix with zero diagonal and non-negative entries satisfies the triangle inequality if three different objects do. -/
theorem triangle_of_ne {K : Type} [Field K] [LinearOrder K] [IsStrictOrderedRing K] {n : ℕ} (M : Fin n → Fin n → K)
    (h0 : ∀ i, M i i = 0) (hp : ∀ i j, 0 ≤ M i j)
    (h : ∀ i j l, i ≠ j → j ≠ l → i ≠ l → M i l ≤ M i j + M j l) : Spec.Triangle M := by
  intro i j l
  by_cases h1 : i = j
  · subst h1; rw [h0]; simp
  by_cases h2 : j = l
  · subst h2; rw [h0]; simp
  by_cases h3 : i = l
  · subst h3; rw [h0]; exact add_nonneg (hp _ _) (hp _ _)
  exact h i j l h1 h2 h3

/-- **C204** (shared nearest neighbours; the claim fails for the other methods, see below): the distances returned by
`shared_nearest_neighbors` satisfy the triangle inequality, for arbitrary finite primary distances. -/
theorem C204_snn_partial {K : Type} [Field K] [LinearOrder K] [IsStrictOrderedRing K] (w : World K) {n : ℕ}
    (D : Fin n → Fin n → XR K) (x : Fin n → Fin n → K)
    (hD : ∀ i j, i ≠ j → D i j = .fin (x i j)) (k : ℕ) (h1 : 1 ≤ k) (hk : k < n) (nJobs : ℤ) :
    ∃ M : Fin n → Fin n → K,
      sharedNearestNeighbors w (.mat false n n D) k "distance" nJobs = .ok ⟨n, fun i j => .fin (M i j)⟩ ∧
      Spec.Triangle M := by
  obtain ⟨N, hN, h⟩ := C34_formula w D x hD k h1 hk "distance" (.inl rfl) nJobs
  refine ⟨_, h, ?_⟩
  have hk0 : (0 : K) < k := Nat.cast_pos.2 (by omega)
  have hle : ∀ i j, ((N i ∩ N j).card : K) ≤ k := fun i j => by
    rw [← (hN i).card]
    exact_mod_cast Finset.card_le_card Finset.inter_subset_left
  have hv : ∀ i j, i ≠ j → (if i = j then Spec.snnSelf "distance" else Spec.snn "distance" (N i) (N j) k : K) =
      (k - (N i ∩ N j).card) / k := by
    intro i j hij
    rw [if_neg hij, Spec.snn, if_neg (by decide), Spec.commonFraction]
    field_simp
  refine triangle_of_ne _ (fun i => by simp [Spec.snnSelf]) ?_ ?_
  · intro i j
    by_cases hij : i = j
    · simp [hij, Spec.snnSelf]
    · rw [hv i j hij]
      exact div_nonneg (sub_nonneg.2 (hle i j)) hk0.le
  · intro i j l h1 h2 h3
    rw [hv i j h1, hv j l h2, hv i l h3, ← add_div]
    apply div_le_div_of_nonneg_right _ hk0.le
    have := overlap_sum (N i) (N j) (N l) (fun _ => (1 : K)) (fun _ => zero_le_one)
    simp only [Finset.sum_const, nsmul_eq_mul, mul_one, (hN j).card] at this
    linarith

/-- **C204** (`simhub` without labels): the distances returned by `simhub` satisfy the triangle inequality. -/
theorem C204_simhub_partial (w : World ℝ) {n : ℕ} (D : Fin n → Fin n → XR ℝ) (x : Fin n → Fin n → ℝ)
    (hD : ∀ i j, i ≠ j → D i j = .fin (x i j)) (s : ℕ) (h1 : 1 ≤ s) (hs : s < n) (nJobs vu : ℤ) :
    ∃ M : Fin n → Fin n → ℝ,
      simhubIN w (.mat false n n D) none none s true nJobs = .ok ⟨n, n, fun i j => .fin (M i j)⟩ ∧
      simhub w (.mat false n n D) none none none s true vu = .ok ⟨n, n, fun i j => .fin (M i j)⟩ ∧
      Spec.Triangle M := by
  obtain ⟨N, hN, h⟩ := C35_formula w D x hD s h1 hs true nJobs
  refine ⟨_, h, by rw [C35_same w w rfl D x hD s h1 hs true nJobs vu, h], ?_⟩
  have hself : ∀ j, j ∉ N j := fun j hj => by have := (hN j).sub hj; simp at this
  have ho : ∀ x, 0 < Spec.occurrence Finset.univ N x ∧ Spec.occurrence Finset.univ N x ≤ n :=
    fun x => ⟨occurrence_pos _ _ _, occurrence_le N hself x⟩
  have hln : 0 < Real.log n := log_pos_of (by omega)
  have hs0 : (0 : ℝ) < s := Nat.cast_pos.2 (by omega)
  have hn0 : (0 : ℝ) < n := Nat.cast_pos.2 (by omega)
  have hf : ∀ x, 0 ≤ Real.log ((n : ℝ) / Spec.occurrence Finset.univ N x) ∧
      Real.log ((n : ℝ) / Spec.occurrence Finset.univ N x) ≤ Real.log n := by
    intro x
    have h2 : (1 : ℝ) ≤ Spec.occurrence Finset.univ N x := by exact_mod_cast (ho x).1
    have h3 : (Spec.occurrence Finset.univ N x : ℝ) ≤ n := by exact_mod_cast (ho x).2
    constructor
    · exact Real.log_nonneg ((one_le_div (by linarith)).2 h3)
    · exact Real.log_le_log (div_pos hn0 (by linarith)) (div_le_self hn0.le h2)
  have hsum : ∀ j, ∑ x ∈ N j, Real.log ((n : ℝ) / Spec.occurrence Finset.univ N x) ≤ s * Real.log n := by
    intro j
    have := Finset.sum_le_card_nsmul (N j) _ _ (fun x _ => (hf x).2)
    rwa [(hN j).card, nsmul_eq_mul] at this
  have hv : ∀ i j, i ≠ j → Spec.orDistance true (if i = j then 1 else
      Spec.simhub n s (Spec.occurrence Finset.univ N) (fun _ => 1) 1 (N i) (N j)) =
      (s * Real.log n - ∑ x ∈ N i ∩ N j, Real.log ((n : ℝ) / Spec.occurrence Finset.univ N x)) / (s * Real.log n) := by
    intro i j hij
    rw [if_neg hij, Spec.orDistance, if_pos rfl, Spec.simhub]
    simp only [mul_one]
    rw [sub_div, div_self (by positivity)]
  refine triangle_of_ne _ (fun i => by simp [Spec.orDistance]) ?_ ?_
  · intro i j
    by_cases hij : i = j
    · simp [hij, Spec.orDistance]
    · rw [hv i j hij]
      refine div_nonneg (sub_nonneg.2 (le_trans ?_ (hsum i))) (by positivity)
      exact Finset.sum_le_sum_of_subset_of_nonneg Finset.inter_subset_left (fun x _ _ => (hf x).1)
  · intro i j l h1 h2 h3
    rw [hv i j h1, hv j l h2, hv i l h3, ← add_div]
    apply div_le_div_of_nonneg_right _ (by positivity)
    have := overlap_sum (N i) (N j) (N l) _ (fun x => (hf x).1)
    have := hsum j
    linarith

end HubToolbox.SNN

namespace HubToolbox.MPEmp

open HubToolbox Spec

/-- Distances (times ten) of a point, of two further points on a line with it, and of points aside which are mutually
equidistant. -/
def asideTable : Fin 4 → Fin 4 → ℕ := ![![16, 10, 21, 15], ![10, 16, 11, 18], ![21, 11, 16, 26], ![15, 18, 26, 16]]

def asideClass {n : ℕ} (i : Fin n) : Fin 4 := if i.val = 0 then 0 else if i.val = 1 then 1 else if i.val = 2 then 2 else 3

def aside {K : Type} [Field K] (n : ℕ) (i j : Fin n) : K :=
  if i = j then 0 else (asideTable (asideClass i) (asideClass j) : ℕ)

theorem aside_metric {K : Type} [Field K] [LinearOrder K] [IsStrictOrderedRing K] (n : ℕ) :
    IsMetricOn (aside n : Fin n → Fin n → K) := by
  have hpos : ∀ a b, 0 < asideTable a b := by decide
  have hsym : ∀ a b, asideTable a b = asideTable b a := by decide
  have htri : ∀ a b c, asideTable a c ≤ asideTable a b + asideTable b c := by decide
  refine ⟨fun i => by simp [aside], ?_, ?_, ?_⟩
  · intro i j hij
    rw [aside, if_neg hij]
    exact_mod_cast hpos _ _
  · intro i j
    unfold aside
    rw [hsym]
    by_cases h : i = j
    · simp [h]
    · rw [if_neg h, if_neg (Ne.symm h)]
  · refine SNN.triangle_of_ne _ (fun i => by simp [aside]) ?_ ?_
    · intro i j
      unfold aside
      split
      · exact le_rfl
      · exact Nat.cast_nonneg _
    · intro i j l h1 h2 h3
      unfold aside
      rw [if_neg h1, if_neg h2, if_neg h3]
      exact_mod_cast htri _ _ _

/-- **C204** (Mutual Proximity): empirical Mutual Proximity of metric distances may violate the triangle inequality by any
factor. -/
theorem C204_mp_violated {K : Type} [Field K] [LinearOrder K] [IsStrictOrderedRing K] (order : Order K) (c : ℕ) :
    ∃ (n : ℕ) (d : Fin n → Fin n → K) (M : Fin n → Fin n → K), IsMetricOn d ∧
      full order (.obj (.mat false n n (fun i j => .fin (d i j)))) "distance" none 0 = .ok (.dense n M) ∧
      ∃ i j l, c * (M i j + M j l) < M i l := by
  obtain ⟨n, hn⟩ : ∃ n, n = 5 * c + 6 := ⟨_, rfl⟩
  have hm := aside_metric (K := K) n
  have hok : full order (.obj (.mat false n n (fun i j => XR.fin (aside (K := K) n i j)))) "distance" none 0 =
      .ok (.dense n (fullDense "distance" (fun i j => XR.fin (aside (K := K) n i j)))) := by
    simp [full, fullChecks, checkValidMetric]
  refine ⟨n, aside n, _, hm, hok, ⟨0, by omega⟩, ⟨1, by omega⟩, ⟨2, by omega⟩, ?_⟩
  have hS : Spec.Symmetric (fun i j => XR.fin (aside (K := K) n i j)) := fun i j => congrArg XR.fin (hm.symm i j)
  have hC := fun i j => (C21_computes_definition order (fun i j => XR.fin (aside (K := K) n i j)) false "distance" none 0 _
    hok hS i j).1 rfl
  rw [hC, hC, hC]
  have hnK : (0 : K) < n := by rw [hn]; exact_mod_cast (by omega)
  -- the three numbers of farther objects
  have val : ∀ i j : Fin n, i ≠ j → aside (K := K) n i j = (asideTable (asideClass i) (asideClass j) : ℕ) := by
    intro i j h
    rw [aside, if_neg h]
  have hfl : ∀ i j i' j' : Fin n, i ≠ j → i' ≠ j' → (XR.flt (XR.fin (aside (K := K) n i j)) (XR.fin (aside n i' j')) ↔
      asideTable (asideClass i) (asideClass j) < asideTable (asideClass i') (asideClass j')) := by
    intro i j i' j' h h'
    rw [val i j h, val i' j' h']
    simp [XR.flt]
  have hcl : ∀ x : Fin n, x.val ≠ 0 → x.val ≠ 1 → x.val ≠ 2 → asideClass x = 3 := by
    intro x h0 h1 h2
    simp [asideClass, h0, h1, h2]
  have f01 : n - 2 ≤ (farther (fun i j => XR.fin (aside (K := K) n i j)) ⟨0, by omega⟩ ⟨1, by omega⟩).card := by
    have hsub : (Finset.univ \ {⟨0, by omega⟩, ⟨1, by omega⟩} : Finset (Fin n)) ⊆
        farther (fun i j => XR.fin (aside (K := K) n i j)) ⟨0, by omega⟩ ⟨1, by omega⟩ := by
      intro x hx
      simp only [Finset.mem_sdiff, Finset.mem_univ, true_and, Finset.mem_insert, Finset.mem_singleton, not_or] at hx
      unfold farther
      rw [Finset.mem_filter]
      refine ⟨Finset.mem_univ _, hx.1, hx.2, ?_, ?_⟩
      all_goals
        rw [hfl _ _ _ _ (by simp) (by first | exact Ne.symm hx.1 | exact Ne.symm hx.2)]
        have h0 : x.val ≠ 0 := fun h => hx.1 (Fin.ext h)
        have h1 : x.val ≠ 1 := fun h => hx.2 (Fin.ext h)
        by_cases h2 : x.val = 2
        · simp [asideClass, h2, asideTable]
        · rw [hcl x h0 h1 h2]; simp [asideClass, asideTable]
    refine le_trans ?_ (Finset.card_le_card hsub)
    rw [Finset.card_sdiff_of_subset (Finset.subset_univ _), Finset.card_univ, Fintype.card_fin]
    exact Nat.sub_le_sub_left (Finset.card_le_two) n
  have f12 : n - 3 ≤ (farther (fun i j => XR.fin (aside (K := K) n i j)) ⟨1, by omega⟩ ⟨2, by omega⟩).card := by
    have hsub : (Finset.univ \ {⟨0, by omega⟩, ⟨1, by omega⟩, ⟨2, by omega⟩} : Finset (Fin n)) ⊆
        farther (fun i j => XR.fin (aside (K := K) n i j)) ⟨1, by omega⟩ ⟨2, by omega⟩ := by
      intro x hx
      simp only [Finset.mem_sdiff, Finset.mem_univ, true_and, Finset.mem_insert, Finset.mem_singleton, not_or] at hx
      unfold farther
      rw [Finset.mem_filter]
      refine ⟨Finset.mem_univ _, hx.2.1, hx.2.2, ?_, ?_⟩
      all_goals
        rw [hfl _ _ _ _ (by simp) (by first | exact Ne.symm hx.2.1 | exact Ne.symm hx.2.2)]
        have h0 : x.val ≠ 0 := fun h => hx.1 (Fin.ext h)
        have h1 : x.val ≠ 1 := fun h => hx.2.1 (Fin.ext h)
        have h2 : x.val ≠ 2 := fun h => hx.2.2 (Fin.ext h)
        rw [hcl x h0 h1 h2]; simp [asideClass, asideTable]
    refine le_trans ?_ (Finset.card_le_card hsub)
    rw [Finset.card_sdiff_of_subset (Finset.subset_univ _), Finset.card_univ, Fintype.card_fin]
    exact Nat.sub_le_sub_left (Finset.card_le_three) n
  have f02 : (farther (fun i j => XR.fin (aside (K := K) n i j)) ⟨0, by omega⟩ ⟨2, by omega⟩).card = 0 := by
    rw [Finset.card_eq_zero]
    apply Finset.eq_empty_of_forall_notMem
    intro x hx
    unfold farther at hx
    rw [Finset.mem_filter] at hx
    obtain ⟨-, hx0, hx2, hx3, -⟩ := hx
    rw [hfl _ _ _ _ (by simp) (Ne.symm hx0)] at hx3
    have h0 : x.val ≠ 0 := fun h => hx0 (Fin.ext h)
    have h2 : x.val ≠ 2 := fun h => hx2 (Fin.ext h)
    by_cases h1 : x.val = 1
    · simp [asideClass, h1, asideTable] at hx3
    · rw [hcl x h0 h1 h2] at hx3; simp [asideClass, asideTable] at hx3
  unfold mpDistance
  rw [if_neg (by simp), if_neg (by simp), if_neg (by simp), f02]
  have g01 : (n : K) - 2 ≤ (farther (fun i j => XR.fin (aside (K := K) n i j)) ⟨0, by omega⟩ ⟨1, by omega⟩).card := by
    rw [sub_le_iff_le_add]
    exact_mod_cast (by omega)
  have g12 : (n : K) - 3 ≤ (farther (fun i j => XR.fin (aside (K := K) n i j)) ⟨1, by omega⟩ ⟨2, by omega⟩).card := by
    rw [sub_le_iff_le_add]
    exact_mod_cast (by omega)
  have hn5 : (5 : K) * c < n := by rw [hn]; exact_mod_cast (by omega)
  generalize ((farther (fun i j => XR.fin (aside (K := K) n i j)) ⟨0, by omega⟩ ⟨1, by omega⟩).card : K) = a at *
  generalize ((farther (fun i j => XR.fin (aside (K := K) n i j)) ⟨1, by omega⟩ ⟨2, by omega⟩).card : K) = b at *
  have hab : (1 - a / n) + (1 - b / n) ≤ 5 / n := by
    rw [le_div_iff₀ hnK]
    have : ((1 - a / n) + (1 - b / n)) * n = 2 * n - a - b := by field_simp; ring
    rw [this]
    linarith
  have hc0 : (0 : K) ≤ c := Nat.cast_nonneg c
  calc (c : K) * ((1 - a / n) + (1 - b / n)) ≤ c * (5 / n) := mul_le_mul_of_nonneg_left hab hc0
    _ < 1 := by rw [← mul_div_assoc, div_lt_one hnK]; linarith
    _ = 1 - ((0 : ℕ) : K) / n := by simp

end HubToolbox.MPEmp

namespace HubToolbox.LS

open HubToolbox

theorem kthSmallest_last {n : ℕ} {S : Finset (Fin n)} {x : Fin n → ℝ} {k : ℕ} (hk : S.card = k) (j : Fin n) {ρ : ℝ}
    (hj : j ∈ S) (hx : x j = ρ) (h : ∀ l ∈ S, x l ≤ ρ) : Spec.IsKthSmallest S x k ρ := by
  refine ⟨⟨j, hj, hx⟩, ?_, ?_⟩
  · rw [← hk]
    apply Finset.card_lt_card
    rw [Finset.filter_ssubset]
    exact ⟨j, hj, by rw [hx]; exact lt_irrefl _⟩
  · rw [Finset.filter_true_of_mem h, hk]

theorem p4 (a b c d : ℝ) : (![a, b, c, d] : Fin 4 → ℝ) 0 = a ∧ (![a, b, c, d] : Fin 4 → ℝ) 1 = b ∧
    (![a, b, c, d] : Fin 4 → ℝ) 2 = c ∧ (![a, b, c, d] : Fin 4 → ℝ) 3 = d := ⟨rfl, rfl, rfl, rfl⟩

theorem p5 (a b c d e : ℝ) : (![a, b, c, d, e] : Fin 5 → ℝ) 0 = a ∧ (![a, b, c, d, e] : Fin 5 → ℝ) 1 = b ∧
    (![a, b, c, d, e] : Fin 5 → ℝ) 2 = c ∧ (![a, b, c, d, e] : Fin 5 → ℝ) 3 = d ∧
    (![a, b, c, d, e] : Fin 5 → ℝ) 4 = e := ⟨rfl, rfl, rfl, rfl, rfl⟩

/-- Points on a line. -/
def onLine {n : ℕ} (p : Fin n → ℝ) (i j : Fin n) : ℝ := |p i - p j|

theorem onLine_metric {n : ℕ} (p : Fin n → ℝ) (hp : Function.Injective p) : Spec.IsMetricOn (onLine p) where
  self i := by simp [onLine]
  pos i j h := abs_pos.2 (sub_ne_zero.2 (fun e => h (hp e)))
  symm i j := abs_sub_comm _ _
  triangle i j l := abs_sub_le _ _ _

/-- **C204** (Local Scaling): Local Scaling of metric distances (points 0, 1, 2, 10 on a line, `k = 3`) violates the triangle
inequality. -/
theorem C204_local_scaling_violated (w : World) :
    ∃ (d : Fin 4 → Fin 4 → ℝ) (M : Fin 4 → Fin 4 → ℝ), Spec.IsMetricOn d ∧
      localScaling w (.mat false 4 4 (toXR d)) 3 "distance" none 1 = .ok ⟨4, toXR M⟩ ∧
      M 0 1 + M 1 2 < M 0 2 := by
  have ht : Spec.training 4 none = Finset.univ := by simp [Spec.training]
  have hm : Spec.IsMetricOn (onLine ![0, 1, 2, 10]) := onLine_metric _ (by
    intro i j h
    fin_cases i <;> fin_cases j <;> first | rfl | (exfalso; norm_num at h))
  have hr : ∀ i, Spec.IsKthSmallest ((Spec.training 4 none).erase i) (onLine ![0, 1, 2, 10] i) 3
      ((![10, 9, 8, 10] : Fin 4 → ℝ) i) := by
    rw [ht]
    intro i
    fin_cases i
    · refine kthSmallest_last (by decide) 3 (by decide) (by norm_num [onLine, p4]) (fun l _ => ?_)
      fin_cases l <;> norm_num [onLine, p4]
    · refine kthSmallest_last (by decide) 3 (by decide) (by norm_num [onLine, p4]) (fun l _ => ?_)
      fin_cases l <;> norm_num [onLine, p4]
    · refine kthSmallest_last (by decide) 3 (by decide) (by norm_num [onLine, p4]) (fun l _ => ?_)
      fin_cases l <;> norm_num [onLine, p4]
    · refine kthSmallest_last (by decide) 0 (by decide) (by norm_num [onLine, p4]) (fun l _ => ?_)
      fin_cases l <;> norm_num [onLine, p4]
  refine ⟨_, _, hm, C28_formula w _ hm.symm 3 (by norm_num) none 1 (Or.inr le_rfl) _ hr
    (by intro i; fin_cases i <;> norm_num) (by norm_num), ?_⟩
  rw [if_neg (by decide), if_neg (by decide), if_neg (by decide)]
  have e1 : Spec.localScaling (onLine ![0, 1, 2, 10] (0 : Fin 4) 1) ((![10, 9, 8, 10] : Fin 4 → ℝ) 0)
      ((![10, 9, 8, 10] : Fin 4 → ℝ) 1) ≤ 1 / 90 := by
    have := Real.add_one_le_exp (-(1 / 90) : ℝ)
    norm_num [Spec.localScaling, onLine, p4] at this ⊢
    linarith
  have e2 : Spec.localScaling (onLine ![0, 1, 2, 10] (1 : Fin 4) 2) ((![10, 9, 8, 10] : Fin 4 → ℝ) 1)
      ((![10, 9, 8, 10] : Fin 4 → ℝ) 2) ≤ 1 / 72 := by
    have := Real.add_one_le_exp (-(1 / 72) : ℝ)
    norm_num [Spec.localScaling, onLine, p4] at this ⊢
    linarith
  have e3 : 1 / 21 ≤ Spec.localScaling (onLine ![0, 1, 2, 10] (0 : Fin 4) 2) ((![10, 9, 8, 10] : Fin 4 → ℝ) 0)
      ((![10, 9, 8, 10] : Fin 4 → ℝ) 2) := by
    have h1 := Real.add_one_le_exp (1 / 20 : ℝ)
    have h2 : Real.exp (-(1 / 20)) ≤ 20 / 21 := by
      rw [Real.exp_neg, inv_le_comm₀ (Real.exp_pos _) (by norm_num)]
      norm_num at h1 ⊢
      exact h1
    norm_num [Spec.localScaling, onLine, p4] at h2 ⊢
    linarith
  linarith

/-- **C204** (NICDM): NICDM of metric distances (points 0, 1, 16, 31, 32 on a line, `k = 1`) violates the triangle
inequality. -/
theorem C204_nicdm_violated (w : World) :
    ∃ (d : Fin 5 → Fin 5 → ℝ) (M : Fin 5 → Fin 5 → ℝ), Spec.IsMetricOn d ∧
      nicdm w (.mat false 5 5 (toXR d)) 1 "distance" none 1 = .ok ⟨5, toXR M⟩ ∧
      M 0 2 + M 2 4 < M 0 4 := by
  have ht : Spec.training 5 none = Finset.univ := by simp [Spec.training]
  have hm : Spec.IsMetricOn (onLine ![0, 1, 16, 31, 32]) := onLine_metric _ (by
    intro i j h
    fin_cases i <;> fin_cases j <;> first | rfl | (exfalso; norm_num at h))
  have hN : ∀ i, Spec.IsNearest ((Spec.training 5 none).erase i) (onLine ![0, 1, 16, 31, 32] i) 1
      ((![{1}, {0}, {1}, {4}, {3}] : Fin 5 → Finset (Fin 5)) i) := by
    rw [ht]
    intro i
    fin_cases i
    · refine nearest_one 1 (by decide) (fun l hl => ?_)
      fin_cases l <;> first | (exfalso; revert hl; decide) | norm_num [onLine, p5]
    · refine nearest_one 0 (by decide) (fun l hl => ?_)
      fin_cases l <;> first | (exfalso; revert hl; decide) | norm_num [onLine, p5]
    · refine nearest_one 1 (by decide) (fun l hl => ?_)
      fin_cases l <;> first | (exfalso; revert hl; decide) | norm_num [onLine, p5]
    · refine nearest_one 4 (by decide) (fun l hl => ?_)
      fin_cases l <;> first | (exfalso; revert hl; decide) | norm_num [onLine, p5]
    · refine nearest_one 3 (by decide) (fun l hl => ?_)
      fin_cases l <;> first | (exfalso; revert hl; decide) | norm_num [onLine, p5]
  have hmean : ∀ i, Spec.meanOver ((![{1}, {0}, {1}, {4}, {3}] : Fin 5 → Finset (Fin 5)) i)
      (onLine ![0, 1, 16, 31, 32] i) = (![1, 1, 15, 1, 1] : Fin 5 → ℝ) i := by
    intro i; fin_cases i <;> norm_num [Spec.meanOver, onLine, p5]
  have hpos : ∀ i, 0 < (![1, 1, 15, 1, 1] : Fin 5 → ℝ) i := by intro i; fin_cases i <;> norm_num
  refine ⟨_, _, hm, C32_formula w _ hm.symm 1 le_rfl none 1 _ hN (fun i => by rw [hmean]; exact hpos i) (by norm_num), ?_⟩
  simp only [hmean]
  rw [if_neg (by decide), if_neg (by decide), if_neg (by decide)]
  have hg : 0 < Spec.geometricMean (![1, 1, 15, 1, 1] : Fin 5 → ℝ) :=
    Real.rpow_pos_of_pos (Finset.prod_pos (fun i _ => hpos i)) _
  generalize Spec.geometricMean (![1, 1, 15, 1, 1] : Fin 5 → ℝ) = g at hg
  have h15 : (3 : ℝ) ≤ √15 := by
    apply Real.le_sqrt_of_sq_le; norm_num
  have e1 : g * 16 / √15 ≤ g * 16 / 3 := div_le_div_of_nonneg_left (by positivity) (by norm_num) h15
  norm_num [Spec.nicdm, onLine, p5]
  linarith

/-- The smallest non-trivial instance of the positive part: four objects, two neighbours each. -/
example (w : SNN.World ℚ) := SNN.C204_snn_partial w (fun i j : Fin 4 => .fin |(![0, 1, 3, 7] i : ℚ) - ![0, 1, 3, 7] j|) _
  (fun _ _ _ => rfl) 2 (by norm_num) (by norm_num) 1

example (w : SNN.World ℝ) := SNN.C204_simhub_partial w (fun i j : Fin 4 => .fin (onLine ![0, 1, 3, 7] i j)) _
  (fun _ _ _ => rfl) 2 (by norm_num) (by norm_num) 1 0

end HubToolbox.LS
