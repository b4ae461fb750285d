import Verif.Relations.Stable
import Verif.Rounding.CountProps

/-!
# Counting methods on distances in double precision (C282)

Empirical Mutual Proximity and shared nearest neighbours count objects. Computed in double precision from distances which are themselves computed in
double precision, they do not see the rounding errors of the distances: the whole pipeline has only the rounding errors of the final divisions.
-/

set_option autoImplicit false

namespace HubToolbox.Relations

open HubToolbox Ieee Rounding

section
variable {n : ℕ} {x y : Fin n → Fin n → ℝ}

/-- Mutual Proximity of distances depends on the order within rows. -/
theorem mpDistance_rows (hx : ∀ i j, x i j = x j i) (hy : ∀ i j, y i j = y j i)
    (ho : ∀ i a b, a ≠ i → b ≠ i → (x i a < x i b ↔ y i a < y i b)) (i j : Fin n) :
    (Spec.mpDistance (LS.toXR x) i j : ℝ) = Spec.mpDistance (LS.toXR y) i j := by
  unfold Spec.mpDistance
  by_cases hij : i = j
  · rw [if_pos hij, if_pos hij]
  rw [if_neg hij, if_neg hij]
  congr 3
  congr 1
  unfold Spec.farther
  refine Finset.filter_congr fun a _ => ?_
  refine and_congr_right fun ha => and_congr_right fun hb => ?_
  refine and_congr (ho i j a (Ne.symm hij) ha) ?_
  show x i j < x j a ↔ y i j < y j a
  rw [hx i j, hy i j]
  exact ho j i a hij hb

end

/-- The values of Mutual Proximity in a floating-point format are determined by those of the definition. -/
theorem mpEmpiric_of_mpDistance {K : Type} [Field K] [LinearOrder K] [IsStrictOrderedRing K] (R S : Rounding K) {n : ℕ}
    (hn : R.rnd (n : K) = .fin n) (D D' : Fin n → Fin n → XR K) (hx : Spec.Symmetric D) (hy : Spec.Symmetric D')
    (h : ∀ i j, (Spec.mpDistance D i j : K) = Spec.mpDistance D' i j) (sp : Bool) (test : Option MPEmp.TestArg) :
    R.mpEmpiric S (.mat sp n n D) "distance" test = R.mpEmpiric S (.mat sp n n D') "distance" test := by
  unfold Rounding.mpEmpiric
  simp only [dif_pos]
  cases hc : MPEmp.fullChecks false "distance" test with
  | error e => rfl
  | ok u =>
    have hfull : ∀ D : Fin n → Fin n → XR K, MPEmp.full (fun _ _ => []) (.obj (.mat sp n n D)) "distance" test 0
        = .ok (.dense n (MPEmp.fullDense "distance" D)) := by
      intro D
      unfold MPEmp.full
      simp only [dif_pos, hc]
      rfl
    have key : R.mpDense S "distance" D = R.mpDense S "distance" D' := by
      funext i j
      have h0 : 0 < n := i.pos
      have hn0 : (n : K) ≠ 0 := by exact_mod_cast h0.ne'
      have e := h i j
      rw [← (MPEmp.C21_computes_definition (fun _ _ => []) _ sp "distance" test 0 _ (hfull D) hx i j).1 rfl,
        ← (MPEmp.C21_computes_definition (fun _ _ => []) _ sp "distance" test 0 _ (hfull D') hy i j).1 rfl,
        fullDense_count, fullDense_count, if_neg (by decide), if_neg (by decide)] at e
      have e2 : (mpCount "distance" D i j : K) = mpCount "distance" D' i j := by
        have : (mpCount "distance" D i j : K) / n = mpCount "distance" D' i j / n := by linarith
        exact (div_left_inj' hn0).1 this
      rw [mpDense_apply "distance" D h0 hn i j, mpDense_apply "distance" D' h0 hn i j, Nat.cast_injective e2]
    simp only [Fin.cast_refl, id]
    rw [key]

section
variable (L : CosLib ℝ) (hL : L.Near) (h0 : L.sqrt (.fin 0) = .fin 0) {n d : ℕ} (hd : d ≤ 2 ^ 46) (X : Fin n → Fin d → ℝ) (hX : EucModerate X)
  (hgap : ∀ i a b, a ≠ i → b ≠ i → a ≠ b →
    (1 + 8 * (d + 2) * 2 ^ (-53 : ℤ)) * √(∑ f, (X i f - X a f) ^ 2) < √(∑ f, (X i f - X b f) ^ 2) ∨
    (1 + 8 * (d + 2) * 2 ^ (-53 : ℤ)) * √(∑ f, (X i f - X b f) ^ 2) < √(∑ f, (X i f - X a f) ^ 2))
include hL h0 hd hX hgap

theorem euclid_order : ∃ z : Fin n → Fin n → ℝ, (double.rounding ℝ).euclideanDistance L (fun i f => .fin (X i f)) = LS.toXR z ∧
    (∀ i j, z i j = z j i) ∧ ∀ i a b, a ≠ i → b ≠ i → a ≠ b →
      (√(∑ f, (X i f - X a f) ^ 2) < √(∑ f, (X i f - X b f) ^ 2) ∧ z i a < z i b) ∨
      (√(∑ f, (X i f - X b f) ^ 2) < √(∑ f, (X i f - X a f) ^ 2) ∧ z i b < z i a) := by
  choose z hz _ using fun i j => C244 L hL h0 hd X hX i j
  have hone : ∀ s : ℝ, 0 ≤ s → s ≤ (1 + 8 * (d + 2) * 2 ^ (-53 : ℤ)) * s := by
    intro s hs
    refine le_mul_of_one_le_left hs ?_
    have : (0 : ℝ) ≤ 8 * (d + 2) * 2 ^ (-53 : ℤ) := by positivity
    linarith
  refine ⟨z, funext fun i => funext fun j => hz i j, fun i j => ?_, fun i a b ha hb hab => ?_⟩
  · have := C244_symm (double.rounding ℝ) L (fun i f => .fin (X i f)) i j
    rw [hz, hz] at this
    exact XR.fin.inj this
  · have key : ∀ a b, (1 + 8 * (d + 2) * 2 ^ (-53 : ℤ)) * √(∑ f, (X i f - X a f) ^ 2) < √(∑ f, (X i f - X b f) ^ 2) →
        √(∑ f, (X i f - X a f) ^ 2) < √(∑ f, (X i f - X b f) ^ 2) ∧ z i a < z i b := by
      intro a b hg
      refine ⟨(hone _ (Real.sqrt_nonneg _)).trans_lt hg, ?_⟩
      have := C244_order L hL h0 hd X hX i a i b hg
      rw [hz, hz] at this
      exact this
    exact (hgap i a b ha hb hab).imp (key a b) (key b a)

/-- **C282** (Mutual Proximity): under the condition of C280 on the vectors, `mutual_proximity_empiric` in a format `F` (and stored in a format `G`) of the
distances computed in double precision is that of the exact distances, and orders pairs like Mutual Proximity of the exact distances. -/
theorem C282 (F G : Ieee) (hs : Ieee.Small F G n) (sp : Bool) (test : Option MPEmp.TestArg) :
    (F.rounding ℝ).mpEmpiric (G.rounding ℝ) (.mat sp n n ((double.rounding ℝ).euclideanDistance L (fun i f => .fin (X i f)))) "distance" test =
      (F.rounding ℝ).mpEmpiric (G.rounding ℝ) (.mat sp n n (fun i j => .fin √(∑ f, (X i f - X j f) ^ 2))) "distance" test ∧
    ∀ M, (F.rounding ℝ).mpEmpiric (G.rounding ℝ) (.mat sp n n ((double.rounding ℝ).euclideanDistance L (fun i f => .fin (X i f)))) "distance" test
        = .ok ⟨n, M⟩ →
      ∀ i j a b, M i j < M a b ↔ (Spec.mpDistance (fun i j => .fin √(∑ f, (X i f - X j f) ^ 2)) i j : ℝ) <
        Spec.mpDistance (fun i j => .fin √(∑ f, (X i f - X j f) ^ 2)) a b := by
  obtain ⟨z, hz, hsym, hg⟩ := euclid_order L hL h0 hd X hX hgap
  have hx : ∀ i j, √(∑ f, (X i f - X j f) ^ 2) = √(∑ f, (X j f - X i f) ^ 2) := fun i j => by
    congr 1
    exact Finset.sum_congr rfl fun f _ => by ring
  have hm : ∀ i j, (Spec.mpDistance (LS.toXR z) i j : ℝ) = Spec.mpDistance (LS.toXR fun i j => √(∑ f, (X i f - X j f) ^ 2)) i j :=
    fun i j => (mpDistance_rows hx hsym (gap_order hg) i j).symm
  have hn : n ≤ 2 ^ F.p := hs.left.le.trans (Nat.pow_le_pow_right (by norm_num) (by omega))
  have e := mpEmpiric_of_mpDistance (F.rounding ℝ) (G.rounding ℝ) (Ieee.round_natCast F hn hs.range) (LS.toXR z) (LS.toXR fun i j => √(∑ f, (X i f - X j f) ^ 2))
    (fun i j => congrArg XR.fin (hsym i j)) (fun i j => congrArg XR.fin (hx i j)) hm sp test
  rw [hz]
  refine ⟨e, fun M hM i j a b => ?_⟩
  have hsx : Spec.Symmetric (LS.toXR z) := fun i j => congrArg XR.fin (hsym i j)
  rw [(C182_order F G hs _ sp "distance" test M hM hsx i j a b).1 rfl, hm, hm]
  rfl

/-- **C282** (shared neighbours): the same for `shared_nearest_neighbors` with `k` neighbours: values are ordered by the fraction of common neighbours in
terms of exact distances. -/
theorem C282_snn (F G : Ieee) (w : SNN.World ℝ) (k : ℕ) (hk : k < n) (hF : Ieee.Small F F k) (hG : Ieee.Small F G k) (nJobs : ℤ) :
    ∃ (N : Fin n → Finset (Fin n)) (M : Fin n → Fin n → XR ℝ),
      (∀ i, (N i).card = k ∧ i ∉ N i ∧ ∀ a ∈ N i, ∀ b ∉ N i, b ≠ i → √(∑ f, (X i f - X a f) ^ 2) < √(∑ f, (X i f - X b f) ^ 2)) ∧
      (F.rounding ℝ).sharedNearestNeighbors (G.rounding ℝ) w
        (.mat false n n ((double.rounding ℝ).euclideanDistance L (fun i f => .fin (X i f)))) k "distance" nJobs = .ok ⟨n, M⟩ ∧
      ∀ i j a b, i ≠ j → a ≠ b → (M i j < M a b ↔ (N a ∩ N b).card < (N i ∩ N j).card) := by
  obtain ⟨z, hz, hsym, hg⟩ := euclid_order L hL h0 hd X hX hgap
  obtain ⟨N, M, hN, hM, ho⟩ := C183_order F G w (LS.toXR z) k hk hF hG "distance" (Or.inl rfl) nJobs z (fun i j _ => rfl)
  have hk0 : (0 : ℝ) < k := by exact_mod_cast hF.pos
  refine ⟨N, M, fun i => ?_, by rw [hz]; exact hM, fun i j a b hij hab => ?_⟩
  · have hi : i ∉ N i := fun hc => Finset.notMem_erase i Finset.univ ((hN i).sub hc)
    refine ⟨(hN i).card, hi, fun a ha b hb hbi => ?_⟩
    have hai : a ≠ i := fun e => hi (e ▸ ha)
    have hab : a ≠ b := fun e => hb (e ▸ ha)
    have hle : z i a ≤ z i b := by
      have := (hN i).best a ha b (Finset.mem_erase.2 ⟨hbi, Finset.mem_univ b⟩) hb
      unfold Spec.nearer at this
      rwa [if_neg (by decide)] at this
    rcases hg i a b hai hbi hab with ⟨h1, -⟩ | ⟨-, h2⟩
    · exact h1
    · exact absurd hle h2.not_ge
  · rw [ho, if_neg hij, if_neg hab]
    unfold Spec.snn Spec.commonFraction
    rw [if_neg (by decide), if_neg (by decide), sub_lt_sub_iff_left, div_lt_div_iff_of_pos_right hk0, Nat.cast_lt]

end

/-! ### Instances -/

example (test : Option MPEmp.TestArg) := C282 CosLib.rounded CosLib.rounded_near CosLib.rounded_sqrt_zero (by norm_num) plane3 plane3_eucModerate
  plane3_apart .double .single ⟨by decide, by decide, by decide, by decide⟩ false test

example (w : SNN.World ℝ) (nJobs : ℤ) := C282_snn CosLib.rounded CosLib.rounded_near CosLib.rounded_sqrt_zero (by norm_num) plane3 plane3_eucModerate
  plane3_apart .double .double w 1 (by norm_num) ⟨by decide, by decide, by decide, by decide⟩ ⟨by decide, by decide, by decide, by decide⟩ nJobs

end HubToolbox.Relations
