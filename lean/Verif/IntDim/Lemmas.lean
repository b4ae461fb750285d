import Verif.IntDim.Model
import Verif.IntDim.Spec
import Verif.Cent.Lemmas
import Mathlib.Data.List.GetD
import Mathlib.Algebra.BigOperators.Field

/-!
# Lemmas about the intrinsic dimension estimator
-/

set_option autoImplicit false

namespace HubToolbox.IntDim

open HubToolbox

theorem sqDist_eq {n m : ℕ} (X : Fin n → Fin m → ℝ) (i j : Fin n) : sqDist X i j = ∑ f, (X i f - X j f) ^ 2 := by
  unfold sqDist norm2
  rw [Finset.mul_sum, ← Finset.sum_add_distrib, ← Finset.sum_sub_distrib]
  refine Finset.sum_congr rfl fun f _ => ?_
  ring

theorem sqDist_dist {n m : ℕ} (X : Fin n → Fin m → ℝ) (i j : Fin n) : sqDist X i j = Spec.dist (X i) (X j) ^ 2 := by
  rw [sqDist_eq, Spec.dist, Real.sq_sqrt (Finset.sum_nonneg fun f _ => sq_nonneg _)]

theorem dist_nonneg {m : ℕ} (x y : Fin m → ℝ) : 0 ≤ Spec.dist x y := Real.sqrt_nonneg _

theorem dist_self {m : ℕ} (x : Fin m → ℝ) : Spec.dist x x = 0 := by simp [Spec.dist]

theorem dist_pos {m : ℕ} {x y : Fin m → ℝ} (h : x ≠ y) : 0 < Spec.dist x y := by
  obtain ⟨f, hf⟩ := Function.ne_iff.mp h
  refine Real.sqrt_pos.mpr (Finset.sum_pos' (fun f _ => sq_nonneg _) ⟨f, Finset.mem_univ f, ?_⟩)
  exact pow_pos_of_ne hf
where
  pow_pos_of_ne {a b : ℝ} (h : a ≠ b) : 0 < (a - b) ^ 2 := by
    have := sub_ne_zero.mpr h
    positivity

theorem foldl_update {n : ℕ} {α : Type} (g : Fin n → α) (l : List (Fin n)) : ∀ M : Fin n → α,
    l.foldl (fun M i => Function.update M i (g i)) M = fun i => if i ∈ l then g i else M i := by
  induction l with
  | nil => intro M; simp
  | cons a l ih =>
    intro M
    rw [List.foldl_cons, ih]
    funext i
    by_cases h : i ∈ l
    · simp [h]
    · by_cases ha : i = a
      · subst ha; simp [h]
      · simp [h, ha]

theorem knnMatrix_eq {n m : ℕ} (mem : ℤ) (X : Fin n → Fin m → ℝ) : knnMatrix mem X = fun i => logRow (sqDist X i) := by
  unfold knnMatrix
  split_ifs
  · rfl
  · rw [foldl_update]
    funext i
    rw [if_pos (List.mem_finRange i)]
    congr 1
    funext j
    unfold sqDist
    congr 2
    exact Finset.sum_congr rfl fun f _ => mul_comm _ _

theorem sort_eq_of_perm {l l' : List ℝ} (h : l.Perm l') : Np.sort l = Np.sort l' :=
  ((Np.sort_perm l).trans (h.trans (Np.sort_perm l').symm)).eq_of_pairwise' (Np.sort_pairwise l) (Np.sort_pairwise l')

theorem sort_eq {l s : List ℝ} (h : l.Perm s) (hs : s.Pairwise (· ≤ ·)) : Np.sort l = s :=
  ((Np.sort_perm l).trans h).eq_of_pairwise' (Np.sort_pairwise l) hs

theorem logRow_perm {n : ℕ} (d : Fin n → ℝ) (σ : Equiv.Perm (Fin n)) : logRow (fun j => d (σ j)) = logRow d := by
  funext c
  unfold logRow
  have h : Np.sort (List.ofFn fun j => d (σ j)) = Np.sort (List.ofFn d) := sort_eq_of_perm (Equiv.Perm.ofFn_comp_perm σ d)
  rw [h]

theorem add_assoc' (a b c : XR ℝ) : XR.add (XR.add a b) c = XR.add a (XR.add b c) := by
  cases a <;> cases b <;> cases c <;> simp [XR.add, add_assoc]

theorem add_comm' (a b : XR ℝ) : XR.add a b = XR.add b a := by
  cases a <;> cases b <;> simp [XR.add, add_comm]

theorem sum_perm {k : ℕ} (f : Fin k → XR ℝ) (σ : Equiv.Perm (Fin k)) : XR.sum (fun c => f (σ c)) = XR.sum f := by
  unfold XR.sum
  have h : ∀ g : Fin k → XR ℝ, (List.finRange k).foldl (fun acc c => XR.add acc (g c)) (.fin 0)
      = (List.ofFn g).foldl XR.add (.fin 0) := by
    intro g
    rw [List.ofFn_eq_map, List.foldl_map]
  rw [h, h]
  have : RightCommutative (XR.add (K := ℝ)) := ⟨fun a b c => by rw [add_assoc', add_comm' b c, ← add_assoc']⟩
  exact (Equiv.Perm.ofFn_comp_perm σ f : (List.ofFn (fun c => f (σ c))).Perm _).foldl_eq _

theorem mean_perm {k : ℕ} (f : Fin k → XR ℝ) (σ : Equiv.Perm (Fin k)) : XR.mean (fun c => f (σ c)) = XR.mean f := by
  unfold XR.mean
  rw [sum_perm]

/-- The estimate from the logarithms of the neighbour distances. -/
noncomputable def core {n : ℕ} (estimator : String) (knn : Fin n → ℕ → ℝ) (k1 k2 : ℤ) : XR ℝ :=
  if estimator = "levina" then levina (k2 + 1 - k1).toNat (dhat knn k1.toNat)
  else mackay (k2 + 1 - k1).toNat (dhat knn k1.toNat)

theorem core_perm {n : ℕ} (estimator : String) (knn : Fin n → ℕ → ℝ) (k1 k2 : ℤ) (σ : Equiv.Perm (Fin n)) :
    core estimator (fun i => knn (σ i)) k1 k2 = core estimator knn k1 k2 := by
  unfold core
  split_ifs
  · unfold levina
    congr 1
    exact sum_perm (fun i => XR.sum fun b : Fin (k2 + 1 - k1).toNat => dhat knn k1.toNat i b) σ
  · unfold mackay
    congr 1
    funext b
    congr 1
    exact mean_perm (fun i => XR.div (.fin 1) (dhat knn k1.toNat i b)) σ

theorem colMean_perm {n m : ℕ} (X : Fin n → Fin m → ℝ) (σ : Equiv.Perm (Fin n)) : colMean (fun i => X (σ i)) = colMean X := by
  funext f
  unfold colMean
  rw [Equiv.sum_comp σ (fun i => X i f)]

theorem centre_perm {n m : ℕ} (X : Fin n → Fin m → ℝ) (σ : Equiv.Perm (Fin n)) :
    centre (fun i => X (σ i)) = fun i => centre X (σ i) := by
  funext i f
  unfold centre
  rw [colMean_perm]

theorem colVar_perm {n m : ℕ} (X : Fin n → Fin m → ℝ) (σ : Equiv.Perm (Fin n)) : colVar (fun i => X (σ i)) = colVar X := by
  funext f
  unfold colVar
  rw [colMean_perm, Equiv.sum_comp σ (fun i => (X i f - colMean X f) ^ 2)]

theorem transform_perm {n m : ℕ} (trafo : Option String) (X : Fin n → Fin m → ℝ) (σ : Equiv.Perm (Fin n)) :
    transform trafo (fun i => X (σ i)) = (transform trafo X).map fun Y i => Y (σ i) := by
  unfold transform
  cases trafo with
  | none => rfl
  | some t =>
    simp only [centre_perm, colVar_perm]
    split_ifs <;> rfl

/-- What is computed if all arguments are valid; the order of the rows does not matter. -/
theorem eval {L : LexSort} {n m : ℕ} (X : Fin n → Fin m → ℝ) {k1 k2 : ℤ} {estimator : String}
    (he : estimator = "levina" ∨ estimator = "mackay") (h1 : 1 ≤ k1) (h12 : k1 ≤ k2) (h2 : k2 < n) (hm : m ≠ 0)
    (trafo : Option String) (mem : ℤ) : intrinsicDimension L X k1 k2 estimator "vector" trafo mem
      = (transform trafo X).map fun Y => core estimator (fun i => logRow (sqDist Y i)) k1 k2 := by
  unfold intrinsicDimension
  rw [if_neg (not_not.mpr he), if_neg (by omega), if_pos rfl, if_neg hm, transform_perm]
  cases transform trafo X with
  | error e => rfl
  | ok Y =>
    simp only [Except.map, bind, Except.bind]
    have hk : knnMatrix mem (fun i => Y (L.run X i)) = fun i => logRow (sqDist Y (L.run X i)) := by
      rw [knnMatrix_eq]
      funext i
      exact logRow_perm (sqDist Y (L.run X i)) (L.run X)
    rw [hk]
    have := core_perm estimator (fun i => logRow (sqDist Y i)) k1 k2 (L.run X)
    rw [← this]
    unfold core
    split_ifs <;> rfl

theorem sorted_sqDist {n m : ℕ} (X : Fin n → Fin m → ℝ) (i : Fin n) (T : ℕ → ℝ) (hT : Spec.Neighbours X i T) :
    Np.sort (List.ofFn (sqDist X i)) = 0 :: (List.range (n - 1)).map fun c => T c ^ 2 := by
  have hnn : ∀ c, c + 1 < n → 0 ≤ T c := by
    intro c hc
    have : T c ∈ (Multiset.range (n - 1)).map T := Multiset.mem_map_of_mem _ (Multiset.mem_range.mpr (by omega))
    rw [hT.2] at this
    obtain ⟨j, -, hj⟩ := Multiset.mem_map.mp this
    rw [← hj]
    exact dist_nonneg _ _
  refine sort_eq ?_ ?_
  · rw [← Multiset.coe_eq_coe]
    have e1 : ((List.ofFn (sqDist X i) : List ℝ) : Multiset ℝ) = (Finset.univ : Finset (Fin n)).val.map (sqDist X i) := by
      rw [List.ofFn_eq_map]
      rfl
    have e2 : (Finset.univ : Finset (Fin n)).val = i ::ₘ (Finset.univ.erase i).val := by
      rw [Finset.erase_val, Multiset.cons_erase (Finset.mem_univ i)]
    have e3 : (Finset.univ.erase i).val.map (sqDist X i) = ((Multiset.range (n - 1)).map T).map (· ^ 2) := by
      rw [hT.2, Multiset.map_map]
      refine Multiset.map_congr rfl fun j _ => ?_
      exact sqDist_dist X i j
    rw [e1, e2, Multiset.map_cons, e3, sqDist_dist, dist_self, Multiset.map_map, ← Multiset.cons_coe]
    norm_num
    rfl
  · rw [List.pairwise_cons]
    constructor
    · intro a ha
      obtain ⟨c, -, rfl⟩ := List.mem_map.mp ha
      positivity
    · rw [List.pairwise_map]
      refine List.Pairwise.imp_of_mem ?_ List.pairwise_lt_range
      intro a b ha hb hab
      rw [List.mem_range] at ha hb
      exact pow_le_pow_left₀ (hnn a (by omega)) (hT.1 a b hab.le (by omega)) 2

/-- Columns of `knnmatrix`. -/
theorem logRow_eq {n m : ℕ} (X : Fin n → Fin m → ℝ) (i : Fin n) (T : ℕ → ℝ) (hT : Spec.Neighbours X i T) (c : ℕ)
    (hc : c + 1 < n) (h0 : 0 < T c) : logRow (sqDist X i) c = Real.log (T c) := by
  unfold logRow
  rw [sorted_sqDist X i T hT, List.map_cons, List.getD_cons_succ, List.map_map, List.getD_eq_getElem _ _ (by simp; omega)]
  simp only [List.getElem_map, List.getElem_range, Function.comp, fix]
  rw [if_neg (not_le.mpr (by positivity)), Real.log_pow]
  push_cast
  ring

/-- Distances to other points can always be listed in ascending order. -/
theorem neighbours_exist {n m : ℕ} (X : Fin n → Fin m → ℝ) (i : Fin n) : ∃ T, Spec.Neighbours X i T := by
  have hl : (Np.sort ((Finset.univ.erase i).toList.map fun j => Spec.dist (X i) (X j))).length = n - 1 := by
    rw [(Np.sort_perm _).length_eq, List.length_map, Finset.length_toList, Finset.card_erase_of_mem (Finset.mem_univ i),
      Finset.card_univ, Fintype.card_fin]
  refine ⟨fun c => (Np.sort ((Finset.univ.erase i).toList.map fun j => Spec.dist (X i) (X j))).getD c 0, ?_, ?_⟩
  · intro a b hab hb
    show List.getD _ a 0 ≤ List.getD _ b 0
    rw [List.getD_eq_getElem _ _ (hl ▸ (by omega : a < n - 1)), List.getD_eq_getElem _ _ (hl ▸ (by omega : b < n - 1))]
    rcases eq_or_lt_of_le hab with rfl | h
    · exact le_rfl
    · exact List.pairwise_iff_getElem.1 (Np.sort_pairwise _) _ _ _ _ h
  · have : (Finset.univ.erase i).val.map (fun j => Spec.dist (X i) (X j))
        = ((Np.sort ((Finset.univ.erase i).toList.map fun j => Spec.dist (X i) (X j)) : List ℝ) : Multiset ℝ) := by
      rw [Multiset.coe_eq_coe.mpr (Np.sort_perm _), ← Multiset.map_coe, Finset.coe_toList]
    rw [this]
    generalize Np.sort ((Finset.univ.erase i).toList.map fun j => Spec.dist (X i) (X j)) = l at hl
    rw [← hl]
    show (((List.range l.length).map fun c => l.getD c 0 : List ℝ) : Multiset ℝ) = _
    congr 1
    refine List.ext_getElem (by simp) fun c h1 h2 => ?_
    rw [List.getElem_map, List.getElem_range, List.getD_eq_getElem _ _ h2]

/-- Without duplicates all distances to other points are positive. -/
theorem neighbours_pos {n m : ℕ} (X : Fin n → Fin m → ℝ) (hX : Function.Injective X) (i : Fin n) (T : ℕ → ℝ)
    (hT : Spec.Neighbours X i T) (c : ℕ) (hc : c + 1 < n) : 0 < T c := by
  have : T c ∈ (Multiset.range (n - 1)).map T := Multiset.mem_map_of_mem _ (Multiset.mem_range.mpr (by omega))
  rw [hT.2] at this
  obtain ⟨j, hj, hj'⟩ := Multiset.mem_map.mp this
  rw [← hj']
  refine dist_pos fun h => ?_
  exact (Finset.ne_of_mem_erase (Finset.mem_val.mp hj)).symm (hX h)

/-- The estimate uses nothing but the columns up to `k2`. -/
theorem core_congr {n : ℕ} (estimator : String) (a b : Fin n → ℕ → ℝ) {k1 k2 : ℤ} (h1 : 1 ≤ k1)
    (h : ∀ k : ℕ, k1 ≤ k → k ≤ k2 → ∀ i, (∑ c ∈ Finset.range k, a i c) - a i (k - 1) * k
      = (∑ c ∈ Finset.range k, b i c) - b i (k - 1) * k) : core estimator a k1 k2 = core estimator b k1 k2 := by
  have hd : ∀ i (w : Fin (k2 + 1 - k1).toNat), dhat a k1.toNat i w = dhat b k1.toNat i w := by
    intro i w
    unfold dhat
    rw [h (k1.toNat + w) (by omega) (by omega) i]
  unfold core levina mackay
  simp only [hd]

end HubToolbox.IntDim
