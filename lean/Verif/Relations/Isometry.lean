import Verif.Cent.Local

/-!
# DisSim depends on the distances of the points only (C167)
-/

set_option autoImplicit false

namespace HubToolbox.Relations

open HubToolbox

variable {K : Type} [Field K] [LinearOrder K] [IsStrictOrderedRing K]

theorem sq_mean {ι : Type} (N : Finset ι) (hN : N.Nonempty) (y : ι → K) (x : K) :
    (x - (∑ i ∈ N, y i) / N.card) ^ 2 =
      (∑ i ∈ N, (x - y i) ^ 2) / N.card - (∑ i ∈ N, ∑ j ∈ N, (y i - y j) ^ 2) / (2 * (N.card : K) ^ 2) := by
  have hc : (N.card : K) ≠ 0 := by exact_mod_cast hN.card_pos.ne'
  have h1 : ∑ i ∈ N, (x - y i) ^ 2 = N.card * x ^ 2 - 2 * x * ∑ i ∈ N, y i + ∑ i ∈ N, y i ^ 2 := by
    rw [Finset.mul_sum, ← nsmul_eq_mul, ← Finset.sum_const, ← Finset.sum_sub_distrib, ← Finset.sum_add_distrib]
    exact Finset.sum_congr rfl fun i _ => by ring
  have h2 : ∑ i ∈ N, ∑ j ∈ N, (y i - y j) ^ 2 = 2 * N.card * (∑ i ∈ N, y i ^ 2) - 2 * (∑ i ∈ N, y i) ^ 2 := by
    have : ∀ i ∈ N, ∑ j ∈ N, (y i - y j) ^ 2 = N.card * y i ^ 2 - 2 * y i * ∑ j ∈ N, y j + ∑ j ∈ N, y j ^ 2 := by
      intro i _
      rw [Finset.mul_sum, ← nsmul_eq_mul, ← Finset.sum_const, ← Finset.sum_sub_distrib, ← Finset.sum_add_distrib]
      exact Finset.sum_congr rfl fun i _ => by ring
    rw [Finset.sum_congr rfl this, Finset.sum_add_distrib, Finset.sum_sub_distrib, Finset.sum_const, nsmul_eq_mul,
      ← Finset.mul_sum, ← Finset.sum_mul, ← Finset.mul_sum]
    ring
  rw [h1, h2]
  field_simp
  ring

/-- The squared distance of a point to a centroid in terms of distances between points. -/
theorem sq_centroid {ι φ : Type} [Fintype φ] (N : Finset ι) (hN : N.Nonempty) (Y : ι → φ → K) (x : φ → K) :
    Spec.sq x (Spec.centroid N Y) = (∑ i ∈ N, Spec.sq x (Y i)) / N.card -
      (∑ i ∈ N, ∑ j ∈ N, Spec.sq (Y i) (Y j)) / (2 * (N.card : K) ^ 2) := by
  unfold Spec.sq Spec.centroid
  rw [Finset.sum_congr rfl fun f _ => sq_mean N hN (fun i => Y i f) (x f), Finset.sum_sub_distrib, ← Finset.sum_div,
    ← Finset.sum_div, Finset.sum_comm]
  congr 2
  rw [Finset.sum_comm]
  exact Finset.sum_congr rfl fun i _ => Finset.sum_comm

theorem sq_centroid_congr {ι φ φ' : Type} [Fintype φ] [Fintype φ'] (N : Finset ι) (hN : N.Nonempty) (Y : ι → φ → K)
    (Y' : ι → φ' → K) (x : φ → K) (x' : φ' → K) (hx : ∀ i, Spec.sq x (Y i) = Spec.sq x' (Y' i))
    (hY : ∀ i j, Spec.sq (Y i) (Y j) = Spec.sq (Y' i) (Y' j)) :
    Spec.sq x (Spec.centroid N Y) = Spec.sq x' (Spec.centroid N Y') := by
  rw [sq_centroid N hN, sq_centroid N hN]
  simp only [hx, hY]

/-- **C167** (global DisSim): two sets of points with the same pairwise euclidean distances have the same DisSim matrix, even
when they live in spaces of different dimension. -/
theorem C167_global {n m m' : ℕ} (X : Fin n → Fin m → K) (X' : Fin n → Fin m' → K) (hn : 0 < n) (hm : 0 < m) (hm' : 0 < m')
    (h : ∀ i j, Spec.sq (X i) (X j) = Spec.sq (X' i) (X' j)) : Cent.disSimGlobal X none = Cent.disSimGlobal X' none := by
  have hN : (Finset.univ : Finset (Fin n)).Nonempty := ⟨⟨0, hn⟩, Finset.mem_univ _⟩
  rw [Cent.C40_formula X hn hm, Cent.C40_formula X' hn hm']
  simp only [← Cent.disSim_eq, Spec.disSim, h, sq_centroid_congr _ hN X X' _ _ (h _) h]

/-- **C167** (global DisSim with training vectors). -/
theorem C167_global_test {n l m m' : ℕ} (X : Fin n → Fin m → K) (Y : Fin l → Fin m → K) (X' : Fin n → Fin m' → K)
    (Y' : Fin l → Fin m' → K) (hn : 0 < n) (hl : 0 < l) (hm : 0 < m) (hm' : 0 < m')
    (h : ∀ i j, Spec.sq (X i) (Y j) = Spec.sq (X' i) (Y' j)) (hY : ∀ i j, Spec.sq (Y i) (Y j) = Spec.sq (Y' i) (Y' j)) :
    Cent.disSimGlobal X (some ⟨l, m, Y⟩) = Cent.disSimGlobal X' (some ⟨l, m', Y'⟩) := by
  have hN : (Finset.univ : Finset (Fin l)).Nonempty := ⟨⟨0, hl⟩, Finset.mem_univ _⟩
  rw [Cent.C40_formula_test X Y hn hl hm, Cent.C40_formula_test X' Y' hn hl hm']
  simp only [← Cent.disSim_eq, Spec.disSim, h, sq_centroid_congr _ hN Y Y' _ _ (h _) hY,
    sq_centroid_congr _ hN Y Y' _ _ (hY _) hY]

/-- **C167** (local DisSim): likewise when no point has two others at the same distance. -/
theorem C167_local [FloorRing K] (w w' : SNN.World K) {n m m' : ℕ} (X : Fin n → Fin m → K) (X' : Fin n → Fin m' → K) (k : ℕ) (h1 : 1 ≤ k)
    (hk : k < n) (hm : 0 < m) (hm' : 0 < m') (h : ∀ i j, Spec.sq (X i) (X j) = Spec.sq (X' i) (X' j))
    (hties : ∀ i a b, a ≠ i → b ≠ i → Spec.sq (X i) (X a) = Spec.sq (X i) (X b) → a = b) (nJobs nJobs' : ℤ) :
    Cent.disSimLocal w X .float64 none k nJobs = Cent.disSimLocal w' X' .float64 none k nJobs' := by
  obtain ⟨N, hN, e⟩ := Cent.C41_formula w X k h1 hk hm
  obtain ⟨N', hN', e'⟩ := Cent.C41_formula w' X' k h1 hk hm'
  have hNN : N = N' := by
    funext i
    have h' := hN' i
    simp only [← h] at h'
    refine SNN.IsHood.unique (hN i) h' ?_
    intro a ha b hb hab
    simp only [Finset.coe_erase, Finset.coe_univ, Set.mem_sdiff, Set.mem_univ, Set.mem_singleton_iff, true_and] at ha hb
    exact hties i a b ha hb hab
  subst hNN
  have hne : ∀ i, (N i).Nonempty := fun i => Finset.card_pos.1 (by rw [(hN i).card]; omega)
  rw [e, e']
  simp only [Spec.disSim, h, fun i => sq_centroid_congr _ (hne i) X X' _ _ (h i) h]

/-- **C167** (local DisSim with training vectors). -/
theorem C167_local_test [FloorRing K] (w w' : SNN.World K) {n l m m' : ℕ} (X : Fin n → Fin m → K) (Y : Fin l → Fin m → K)
    (X' : Fin n → Fin m' → K) (Y' : Fin l → Fin m' → K) (k : ℕ) (h1 : 1 ≤ k) (hk : k < l) (hn : 0 < n) (hm : 0 < m)
    (hm' : 0 < m') (h : ∀ i j, Spec.sq (X i) (Y j) = Spec.sq (X' i) (Y' j))
    (hY : ∀ i j, Spec.sq (Y i) (Y j) = Spec.sq (Y' i) (Y' j))
    (hties : ∀ i, Function.Injective (fun j => Spec.sq (X i) (Y j)))
    (htiesY : ∀ i, Function.Injective (fun j => Spec.sq (Y i) (Y j))) (nJobs nJobs' : ℤ) :
    Cent.disSimLocal w X .float64 (some (.float64, ⟨l, m, Y⟩)) k nJobs =
      Cent.disSimLocal w' X' .float64 (some (.float64, ⟨l, m', Y'⟩)) k nJobs' := by
  obtain ⟨N, P, hN, hP, e⟩ := Cent.C41_formula_test w X Y k h1 hk hn hm
  obtain ⟨N', P', hN', hP', e'⟩ := Cent.C41_formula_test w' X' Y' k h1 hk hn hm'
  have hNN : N = N' := by
    funext i
    have h' := hN' i
    simp only [← h] at h'
    exact SNN.IsHood.unique (hN i) h' (hties i).injOn
  have hPP : P = P' := by
    funext i
    have h' := hP' i
    simp only [← hY] at h'
    exact SNN.IsHood.unique (hP i) h' (htiesY i).injOn
  subst hNN hPP
  have hne : ∀ i, (N i).Nonempty := fun i => Finset.card_pos.1 (by rw [(hN i).card]; omega)
  have hne' : ∀ i, (P i).Nonempty := fun i => Finset.card_pos.1 (by rw [(hP i).card]; omega)
  rw [e, e']
  simp only [Spec.disSim, h, fun i => sq_centroid_congr _ (hne i) Y Y' _ _ (h i) hY,
    fun i => sq_centroid_congr _ (hne' i) Y Y' _ _ (hY i) hY]

/-! ### The hypotheses can be met -/

/-- Three points of the plane. -/
def planar : Fin 3 → Fin 2 → ℚ := ![![0, 0], ![3, 4], ![-5, 12]]

/-- The same points in space, turned and moved. -/
def spatial : Fin 3 → Fin 3 → ℚ := ![![1, 1, 7], ![5, -2, 7], ![13, 6, 7]]

example : (∀ i j, Spec.sq (planar i) (planar j) = Spec.sq (spatial i) (spatial j)) ∧
    ∀ i a b, a ≠ i → b ≠ i → Spec.sq (planar i) (planar a) = Spec.sq (planar i) (planar b) → a = b := by
  unfold Spec.sq
  decide +kernel

example : Cent.disSimGlobal planar none = Cent.disSimGlobal spatial none :=
  C167_global planar spatial (by decide) (by decide) (by decide) (by unfold Spec.sq; decide +kernel)

end HubToolbox.Relations
