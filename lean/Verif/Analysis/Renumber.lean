import Verif.Analysis.Units
import Verif.Relations.Renumber
import Verif.Relations.Isometry

/-!
# C248: the numbering of the points does not matter to an analysis

Secondary distances of renumbered points are the renumbered secondary distances, whatever the method; without ties among them all
numbers of an experiment are the same.
-/

set_option autoImplicit false

namespace HubToolbox.Analysis

open Relations (renumbered mem_renumbered isHood_perm)

/-- Vectors as an argument of `HubnessAnalysis`. -/
def packV {n : ℕ} (v : Option (Σ d : ℕ, Fin n → Fin d → ℝ)) : Option (Σ l d : ℕ, Fin l → Fin d → ℝ) := v.map (fun v => ⟨n, v.1, v.2⟩)

/-- Class labels as an argument of `HubnessAnalysis`. -/
def packC {n : ℕ} (y : Option (Fin n → ℤ)) : Option (Σ l : ℕ, Fin l → ℤ) := y.map (fun y => ⟨n, y⟩)

/-- The vectors in another order. -/
def moveV {n : ℕ} (σ : Equiv.Perm (Fin n)) (v : Option (Σ d : ℕ, Fin n → Fin d → ℝ)) : Option (Σ d : ℕ, Fin n → Fin d → ℝ) :=
  v.map (fun v => ⟨v.1, fun i => v.2 (σ i)⟩)

/-- The class labels in another order. -/
def moveC {n : ℕ} (σ : Equiv.Perm (Fin n)) (y : Option (Fin n → ℤ)) : Option (Fin n → ℤ) := y.map (fun y i => y (σ i))

/-- What the methods require: Mutual Proximity symmetric distances, Local Scaling and NICDM also non-negative ones with less than seven others
at distance zero, methods which choose neighbours no ties. -/
def Renumberable {n : ℕ} (D : Fin n → Fin n → ℝ) (v : Option (Σ d : ℕ, Fin n → Fin d → ℝ)) (metric kind : String) : Prop :=
  kind ∈ ["orig", "cent", "wcent", "dsg"] ∨
  (kind ∈ ["mp", "mp_gaussi", "mp_gammai"] ∧ ∀ i j, D i j = D j i) ∨
  (kind ∈ ["ls", "nicdm"] ∧ metric = "distance" ∧ (∀ i j, D i j = D j i) ∧ (∀ i j, 0 ≤ D i j) ∧ 7 < n ∧
    ∀ i, ((Finset.univ.erase i).filter (fun j => D i j = 0)).card < 7) ∨
  (kind = "snn" ∧ 10 < n ∧ ∀ i a b, a ≠ i → b ≠ i → D i a = D i b → a = b) ∨
  (kind = "lcent" ∧ 40 ≤ n ∧ ∀ d (X : Fin n → Fin d → ℝ), v = some ⟨d, X⟩ → ∀ i, Function.Injective (fun j => Spec.cosine (X i) (X j))) ∨
  (kind = "dsl" ∧ 10 < n ∧ ∀ d (X : Fin n → Fin d → ℝ), v = some ⟨d, X⟩ → 0 < d ∧
    ∀ i a b, a ≠ i → b ≠ i → Spec.sq (X i) (X a) = Spec.sq (X i) (X b) → a = b)

/-! ### Sums in another order -/

theorem sum_perm {n : ℕ} (σ : Equiv.Perm (Fin n)) (f : Fin n → XR ℝ) : XR.sum (fun i => f (σ i)) = XR.sum f := by
  unfold XR.sum
  rw [← List.foldl_map (f := σ) (g := fun (acc : XR ℝ) c => XR.add acc (f c))]
  refine List.Perm.foldl_eq' ?_ ?_ _
  · refine (List.perm_ext_iff_of_nodup ((List.nodup_finRange n).map σ.injective) (List.nodup_finRange n)).2 fun a => ?_
    simp only [List.mem_map, List.mem_finRange, true_and, iff_true]
    exact ⟨σ.symm a, σ.apply_symm_apply a⟩
  · intro x _ y _ z
    rw [IntDim.add_assoc', IntDim.add_comm' (f x), ← IntDim.add_assoc']

theorem centroid_perm {n d : ℕ} (σ : Equiv.Perm (Fin n)) (X : Fin n → Fin d → ℝ) :
    Spec.centroid Finset.univ (fun i => X (σ i)) = Spec.centroid Finset.univ X := by
  funext f
  unfold Spec.centroid
  rw [Equiv.sum_comp σ (fun i => X i f)]

theorem centroid_renumbered {n d : ℕ} (σ : Equiv.Perm (Fin n)) (N : Finset (Fin n)) (X : Fin n → Fin d → ℝ) :
    Spec.centroid (renumbered σ N) (fun i => X (σ i)) = Spec.centroid N X := by
  funext f
  unfold Spec.centroid renumbered
  rw [Finset.sum_map, Finset.card_map]
  simp

theorem cosPair_comm {d : ℕ} (x y : Fin d → XR ℝ) : Cent.cosPair x y = Cent.cosPair y x := by
  unfold Cent.cosPair
  simp only []
  congr 3
  funext f
  rw [MPPar.mul_comm']

theorem cosineDistance_off {n d : ℕ} (C : Fin n → Fin d → XR ℝ) (i j : Fin n) :
    cosineDistance C i j = if i = j then .fin 0 else XR.add (.fin 0) (Cent.cosPair (C i) (C j)) := by
  unfold cosineDistance Dist.triu1
  rcases lt_trichotomy i j with h | rfl | h
  · rw [if_pos h, if_neg h.not_gt, if_neg h.ne, IntDim.add_comm']
  · simp [XR.add]
  · rw [if_neg h.not_gt, if_pos h, if_neg h.ne', cosPair_comm]

theorem cosineDistance_perm {n d : ℕ} (σ : Equiv.Perm (Fin n)) (C : Fin n → Fin d → XR ℝ) (i j : Fin n) :
    cosineDistance (fun i => C (σ i)) i j = cosineDistance C (σ i) (σ j) := by
  rw [cosineDistance_off, cosineDistance_off]
  simp only [σ.injective.eq_iff]

/-! ### Each method -/

/-- Both secondary matrices fail to be computed with the same exception, or the second is the first in the other order. -/
def Moved {n : ℕ} (σ : Equiv.Perm (Fin n)) (r r' : Py (PyMat (XR ℝ))) : Prop :=
  (∃ e, r = .error e ∧ r' = .error e) ∨
    ∃ M : Fin n → Fin n → XR ℝ, r = .ok (.mat false n n M) ∧ r' = .ok (.mat false n n (fun i j => M (σ i) (σ j)))

theorem orig_moved (env env' : Env) {n : ℕ} (D : Fin n → Fin n → ℝ) (metric : String) (σ : Equiv.Perm (Fin n)) :
    Moved σ (fromMatrix env "orig" metric D) (fromMatrix env' "orig" metric (fun i j => D (σ i) (σ j))) :=
  Or.inr ⟨fun i j => .fin (D i j), rfl, rfl⟩

theorem mp_moved (env env' : Env) {n : ℕ} (D : Fin n → Fin n → ℝ) (hsym : ∀ i j, D i j = D j i) (metric : String)
    (hm : metric = "distance" ∨ metric = "similarity") (σ : Equiv.Perm (Fin n)) :
    Moved σ (fromMatrix env "mp" metric D) (fromMatrix env' "mp" metric (fun i j => D (σ i) (σ j))) := by
  have hr : ∀ (order : MPEmp.Order ℝ) (E : Fin n → Fin n → XR ℝ), ∃ M, MPEmp.full order (.obj (.mat false n n E)) metric none 0 =
      .ok (.dense n M) := by
    intro order E
    have hf : MPEmp.full order (.obj (.mat false n n E)) metric none 0 =
        (do MPEmp.fullChecks false metric none; pure (.dense n (MPEmp.fullDense metric E))) := by simp [MPEmp.full]
    rw [hf]
    rcases hm with rfl | rfl <;> exact ⟨_, rfl⟩
  obtain ⟨M, hM⟩ := hr env.order (fun i j => .fin (D i j))
  obtain ⟨M', hM'⟩ := hr env'.order (fun i j => .fin (D (σ i) (σ j)))
  have h := MPEmp.C22_relabelling env.order env'.order (fun i j => (.fin (D i j) : XR ℝ)) false false metric none none 0 0 M M' σ
    (fun i j => by simp only [hsym i j]) hM hM'
  refine Or.inr ⟨fun i j => .fin (M i j), ?_, ?_⟩
  · change (MPEmp.full env.order (.obj (.mat false n n (fun i j => .fin (D i j)))) metric none 0).map ofResult = _
    rw [hM]
    rfl
  · change (MPEmp.full env'.order (.obj (.mat false n n (fun i j => .fin (D (σ i) (σ j))))) metric none 0).map ofResult = _
    rw [hM']
    simp only [← h]
    rfl

theorem gauss_moved (env env' : Env) (hd : env'.dists = env.dists) {n : ℕ} (D : Fin n → Fin n → ℝ) (hsym : ∀ i j, D i j = D j i)
    (metric : String) (hm : metric = "distance" ∨ metric = "similarity") (σ : Equiv.Perm (Fin n)) (kind : String)
    (hk : kind = "mp_gaussi" ∨ kind = "mp_gammai") :
    Moved σ (fromMatrix env kind metric D) (fromMatrix env' kind metric (fun i j => D (σ i) (σ j))) := by
  obtain ⟨M, G, h1, h2, h3, h4⟩ := MPPar.C93_relabel env.dists D hsym σ metric hm.symm 30 none none (by simp [Spec.training])
  rcases hk with rfl | rfl
  · refine Or.inr ⟨M, ?_, ?_⟩
    · change (MPPar.gaussi env.dists (.mat false n n D) metric 0 30 none none).map _ = _
      rw [h1]
      rfl
    · change (MPPar.gaussi env'.dists (.mat false n n (fun i j => D (σ i) (σ j))) metric 0 30 none none).map _ = _
      rw [hd, h2]
      rfl
  · refine Or.inr ⟨G, ?_, ?_⟩
    · change (MPPar.gammai env.dists (.mat false n n D) metric 30 none).map square = _
      rw [h3]
      rfl
    · change (MPPar.gammai env'.dists (.mat false n n (fun i j => D (σ i) (σ j))) metric 30 none).map square = _
      rw [hd, h4]
      rfl

theorem ls_moved (env env' : Env) {n : ℕ} (D : Fin n → Fin n → ℝ) (hsym : ∀ i j, D i j = D j i) (hnn : ∀ i j, 0 ≤ D i j) (hn : 7 < n)
    (hz : ∀ i, ((Finset.univ.erase i).filter (fun j => D i j = 0)).card < 7) (σ : Equiv.Perm (Fin n)) (kind : String)
    (hk : kind = "ls" ∨ kind = "nicdm") :
    Moved σ (fromMatrix env kind "distance" D) (fromMatrix env' kind "distance" (fun i j => D (σ i) (σ j))) := by
  have hc : ∀ i, 7 ≤ ((Spec.training n none).erase i).card := by
    intro i
    rw [training_none, Finset.card_erase_of_mem (Finset.mem_univ i), Finset.card_univ, Fintype.card_fin]
    omega
  have hz' : ∀ i, (((Spec.training n none).erase i).filter (fun j => D i j ≤ 0)).card < 7 := by
    intro i
    rw [training_none]
    refine lt_of_le_of_lt (Finset.card_le_card ?_) (hz i)
    intro j hj
    rw [Finset.mem_filter] at hj ⊢
    exact ⟨hj.1, le_antisymm hj.2 (hnn i j)⟩
  rcases hk with rfl | rfl
  · obtain ⟨M, h1, h2⟩ := Relations.C165_local_scaling env.ls env'.ls (by omega) D hsym 7 (by norm_num) none none σ
      (by simp [Spec.training]) hc hz' 1 1 (Or.inr le_rfl) (Or.inr le_rfl)
    refine Or.inr ⟨M, ?_, ?_⟩
    · change (LS.localScaling env.ls (.mat false n n (LS.toXR D)) (7 : ℕ) "distance" none 1).map square = _
      rw [h1]
      rfl
    · change (LS.localScaling env'.ls (.mat false n n (LS.toXR (fun i j => D (σ i) (σ j)))) (7 : ℕ) "distance" none 1).map square = _
      rw [h2]
      rfl
  · obtain ⟨M, h1, h2⟩ := Relations.C165_nicdm env.ls env'.ls (by omega) D hsym hnn 7 (by norm_num) none none σ
      (by simp [Spec.training]) hc hz' 1 1
    refine Or.inr ⟨M, ?_, ?_⟩
    · change (LS.nicdm env.ls (.mat false n n (LS.toXR D)) (7 : ℕ) "distance" none 1).map square = _
      rw [h1]
      rfl
    · change (LS.nicdm env'.ls (.mat false n n (LS.toXR (fun i j => D (σ i) (σ j)))) (7 : ℕ) "distance" none 1).map square = _
      rw [h2]
      rfl

theorem snn_moved (env env' : Env) {n : ℕ} (D : Fin n → Fin n → ℝ) (hn : 10 < n) (hties : ∀ i a b, a ≠ i → b ≠ i → D i a = D i b → a = b)
    (metric : String) (hm : metric = "distance" ∨ metric = "similarity") (σ : Equiv.Perm (Fin n)) :
    Moved σ (fromMatrix env "snn" metric D) (fromMatrix env' "snn" metric (fun i j => D (σ i) (σ j))) := by
  obtain ⟨M, h1, h2⟩ := Relations.C166_snn env.snn env'.snn D hties 10 (by norm_num) hn metric hm σ 1 1
  refine Or.inr ⟨M, ?_, ?_⟩
  · change (SNN.sharedNearestNeighbors env.snn (.mat false n n (fun i j => .fin (D i j))) (10 : ℕ) metric 1).map square = _
    rw [h1]
    rfl
  · change (SNN.sharedNearestNeighbors env'.snn (.mat false n n (fun i j => .fin (D (σ i) (σ j)))) (10 : ℕ) metric 1).map square = _
    rw [h2]
    rfl

theorem centering_perm {n d : ℕ} (X : Fin n → Fin d → ℝ) (σ : Equiv.Perm (Fin n)) (hn : 0 < n) :
    ∃ C : Fin n → Fin d → XR ℝ, Cent.centering X "vector" none = .ok C ∧
      Cent.centering (fun i => X (σ i)) "vector" none = .ok (fun i => C (σ i)) := by
  have ht : (Spec.training n none).Nonempty := by rw [training_none]; exact ⟨⟨0, hn⟩, Finset.mem_univ _⟩
  refine ⟨_, Cent.C37_formula X none ht, ?_⟩
  rw [Cent.C37_formula _ none ht]
  simp only [training_none, centroid_perm]

theorem weighted_perm {n d : ℕ} (X : Fin n → Fin d → ℝ) (σ : Equiv.Perm (Fin n)) :
    ∃ C : Fin n → Fin d → XR ℝ, Cent.weightedCentering X "cosine" 1 none = .ok C ∧
      Cent.weightedCentering (fun i => X (σ i)) "cosine" 1 none = .ok (fun i => C (σ i)) := by
  refine ⟨_, rfl, ?_⟩
  change Except.ok _ = _
  have hs : ∀ f, XR.sum (fun c : Fin (LS.trainInd n none).length => (.fin (X (σ ((LS.trainInd n none).get c)) f) : XR ℝ)) =
      XR.sum (fun c : Fin (LS.trainInd n none).length => (.fin (X ((LS.trainInd n none).get c) f) : XR ℝ)) := by
    intro f
    rw [Cent.sum_fin, Cent.sum_fin, Cent.sum_get _ (LS.trainInd_nodup n none) (fun i => X (σ i) f),
      Cent.sum_get _ (LS.trainInd_nodup n none) (fun i => X i f), LS.trainInd_toFinset, training_none,
      Equiv.sum_comp σ (fun i => X i f)]
  congr 1
  funext i f
  simp only [hs]
  congr 1
  set d : Fin n → XR ℝ := fun i => XR.mul (.fin ((LS.trainInd n none).length : ℝ)) (Cent.cosPair (fun f => .fin (X i f))
    (fun f => XR.div (XR.sum (fun c : Fin (LS.trainInd n none).length => (.fin (X ((LS.trainInd n none).get c) f) : XR ℝ)))
      (.fin ((LS.trainInd n none).length : ℝ)))) with hd
  change XR.sum (fun i => XR.mul (XR.div (Cent.powNN (d (σ i)) 1) (XR.sum (fun i => Cent.powNN (d (σ i)) 1))) (.fin (X (σ i) f))) =
    XR.sum (fun i => XR.mul (XR.div (Cent.powNN (d i) 1) (XR.sum (fun i => Cent.powNN (d i) 1))) (.fin (X i f)))
  rw [sum_perm σ (fun i => Cent.powNN (d i) 1),
    sum_perm σ (fun i => XR.mul (XR.div (Cent.powNN (d i) 1) (XR.sum (fun i => Cent.powNN (d i) 1))) (.fin (X i f)))]

theorem cosine_moved (env env' : Env) {n d : ℕ} (X : Fin n → Fin d → ℝ) (σ : Equiv.Perm (Fin n)) (hn : 0 < n) (kind : String)
    (hk : kind = "cent" ∨ kind = "wcent") :
    Moved σ (fromVectors env kind (some ⟨n, d, X⟩)) (fromVectors env' kind (some ⟨n, d, fun i => X (σ i)⟩)) := by
  rcases hk with rfl | rfl
  · obtain ⟨C, h1, h2⟩ := centering_perm X σ hn
    refine Or.inr ⟨cosineDistance C, ?_, ?_⟩
    · change (Cent.centering X "vector" none).map (fun C => PyMat.mat false n n (cosineDistance C)) = _
      rw [h1]
      rfl
    · change (Cent.centering (fun i => X (σ i)) "vector" none).map (fun C => PyMat.mat false n n (cosineDistance C)) = _
      rw [h2]
      change Except.ok (PyMat.mat false n n (cosineDistance (fun i => C (σ i)))) = _
      congr 2
      funext i j
      exact cosineDistance_perm σ C i j
  · obtain ⟨C, h1, h2⟩ := weighted_perm X σ
    refine Or.inr ⟨cosineDistance C, ?_, ?_⟩
    · change (Cent.weightedCentering X "cosine" 1 none).map (fun C => PyMat.mat false n n (cosineDistance C)) = _
      rw [h1]
      rfl
    · change (Cent.weightedCentering (fun i => X (σ i)) "cosine" 1 none).map (fun C => PyMat.mat false n n (cosineDistance C)) = _
      rw [h2]
      change Except.ok (PyMat.mat false n n (cosineDistance (fun i => C (σ i)))) = _
      congr 2
      funext i j
      exact cosineDistance_perm σ C i j

theorem dsg_moved (env env' : Env) {n d : ℕ} (X : Fin n → Fin d → ℝ) (σ : Equiv.Perm (Fin n)) (hn : 0 < n) :
    Moved σ (fromVectors env "dsg" (some ⟨n, d, X⟩)) (fromVectors env' "dsg" (some ⟨n, d, fun i => X (σ i)⟩)) := by
  rcases Nat.eq_zero_or_pos d with rfl | hd
  · have h0 : ∀ Z : Fin n → Fin 0 → ℝ, Cent.disSimGlobal Z none = .error .valueError := by
      intro Z
      simp [Cent.disSimGlobal]
    refine Or.inl ⟨.valueError, ?_, ?_⟩
    · change (Cent.disSimGlobal X none).map _ = _
      rw [h0]
      rfl
    · change (Cent.disSimGlobal (fun i => X (σ i)) none).map _ = _
      rw [h0]
      rfl
  · refine Or.inr ⟨fun i j => .fin (-2 * Spec.inner (fun f => X i f - Spec.centroid Finset.univ X f)
      (fun f => X j f - Spec.centroid Finset.univ X f)), ?_, ?_⟩
    · change (Cent.disSimGlobal X none).map (fun r => PyMat.mat false n r.1 r.2) = _
      rw [Cent.C40_formula X hn hd]
      rfl
    · change (Cent.disSimGlobal (fun i => X (σ i)) none).map (fun r => PyMat.mat false n r.1 r.2) = _
      rw [Cent.C40_formula _ hn hd]
      simp only [centroid_perm]
      rfl

theorem dsl_moved (env env' : Env) {n d : ℕ} (X : Fin n → Fin d → ℝ) (σ : Equiv.Perm (Fin n)) (hn : 10 < n) (hd : 0 < d)
    (hties : ∀ i a b, a ≠ i → b ≠ i → Spec.sq (X i) (X a) = Spec.sq (X i) (X b) → a = b) :
    Moved σ (fromVectors env "dsl" (some ⟨n, d, X⟩)) (fromVectors env' "dsl" (some ⟨n, d, fun i => X (σ i)⟩)) := by
  obtain ⟨N, hN, h⟩ := Cent.C41_formula env.snn X 10 (by norm_num) hn hd
  obtain ⟨N', hN', h'⟩ := Cent.C41_formula env'.snn (fun i => X (σ i)) 10 (by norm_num) hn hd
  have hNN : N' = fun i => renumbered σ (N (σ i)) := by
    funext i
    refine SNN.IsHood.unique (hN' i) (isHood_perm _ σ (S := Finset.univ.erase (σ i)) (S' := Finset.univ.erase i)
      (by intro a; simp) (hN (σ i))) ?_
    intro a ha b hb hab
    simp only [Finset.coe_erase, Finset.coe_univ, Set.mem_sdiff, Set.mem_univ, Set.mem_singleton_iff, true_and] at ha hb
    exact σ.injective (hties (σ i) (σ a) (σ b) (fun e => ha (σ.injective e)) (fun e => hb (σ.injective e)) hab)
  refine Or.inr ⟨fun i j => if i = j then .ninf else
    .fin (Spec.disSim (X i) (X j) (Spec.centroid (N i) X) (Spec.centroid (N j) X)), ?_, ?_⟩
  · change (Cent.disSimLocal env.snn X .float64 none (10 : ℕ) 1).map (fun r => PyMat.mat false n r.1 r.2) = _
    rw [h]
    rfl
  · change (Cent.disSimLocal env'.snn (fun i => X (σ i)) .float64 none (10 : ℕ) 1).map (fun r => PyMat.mat false n r.1 r.2) = _
    rw [h', hNN]
    simp only [centroid_renumbered, Except.map, σ.injective.eq_iff]

theorem penalty_perm {n : ℕ} (σ : Equiv.Perm (Fin n)) (A : Fin n → ℝ) (gamma : ℝ) (j : Fin n) :
    Cent.penalty (fun j => A (σ j)) gamma j = Cent.penalty A gamma (σ j) := by
  have : (∀ i, 0 ≤ A (σ i)) ↔ ∀ i, 0 ≤ A i := ⟨fun h i => by simpa using h (σ.symm i), fun h i => h _⟩
  unfold Cent.penalty
  simp only [this]

theorem lcent_moved (env env' : Env) {n d : ℕ} (X : Fin n → Fin d → ℝ) (σ : Equiv.Perm (Fin n)) (hn : 40 ≤ n)
    (hties : ∀ i, Function.Injective (fun j => Spec.cosine (X i) (X j))) :
    Moved σ (fromVectors env "lcent" (some ⟨n, d, X⟩)) (fromVectors env' "lcent" (some ⟨n, d, fun i => X (σ i)⟩)) := by
  obtain ⟨N, hN, h⟩ := Cent.C87_formula env.snn X X 40 (by norm_num) hn 1 zero_le_one
  obtain ⟨N', hN', h'⟩ := Cent.C87_formula env'.snn (fun i => X (σ i)) (fun i => X (σ i)) 40 (by norm_num) hn 1 zero_le_one
  have hNN : N' = fun i => renumbered σ (N (σ i)) := by
    funext i
    refine SNN.IsHood.unique (hN' i) (isHood_perm _ σ (S := Finset.univ) (S' := Finset.univ) (by intro a; simp) (hN (σ i))) ?_
    intro a _ b _ hab
    exact σ.injective (hties (σ i) hab)
  have hmean : ∀ j, Cent.meanCosine (fun i => X (σ i)) (renumbered σ (N (σ j))) j = Cent.meanCosine X (N (σ j)) (σ j) := by
    intro j
    unfold Cent.meanCosine renumbered
    rw [Finset.sum_map, Finset.card_map]
    simp
  refine Or.inr ⟨fun i j => XR.sub (.fin 1) (.fin (Spec.cosine (X i) (X j) - Cent.penalty (fun j => Cent.meanCosine X (N j) j) 1 j)), ?_, ?_⟩
  · change (Cent.localizedCentering env.snn X none (40 : ℕ) 1 1).map
      (fun r => PyMat.mat false n r.1 (fun i j => XR.sub (.fin 1) (r.2 i j))) = _
    rw [Cent.C87_one_argument, h]
    rfl
  · change (Cent.localizedCentering env'.snn (fun i => X (σ i)) none (40 : ℕ) 1 1).map
      (fun r => PyMat.mat false n r.1 (fun i j => XR.sub (.fin 1) (r.2 i j))) = _
    rw [Cent.C87_one_argument, h', hNN]
    simp only [hmean, penalty_perm σ (fun j => Cent.meanCosine X (N j) j)]
    rfl

theorem secondary_moved (env env' : Env) (hd : env'.dists = env.dists) {n : ℕ} (hn : 0 < n) (D : Fin n → Fin n → ℝ)
    (classes classes' : Option (Σ l : ℕ, Fin l → ℤ)) (v : Option (Σ d : ℕ, Fin n → Fin d → ℝ)) (metric : String)
    (hm : metric = "distance" ∨ metric = "similarity") (kind : String) (hk : Renumberable D v metric kind) (σ : Equiv.Perm (Fin n)) :
    Moved σ (secondary env (.init D classes (packV v) metric) kind)
      (secondary env' (.init (fun i j => D (σ i) (σ j)) classes' (packV (moveV σ v)) metric) kind) := by
  have hun : ∀ r r' : Py (PyMat (XR ℝ)), Moved σ r r' → Moved σ (untype r) (untype r') := by
    rintro r r' (⟨e, rfl, rfl⟩ | ⟨M, rfl, rfl⟩)
    · rcases e <;> exact Or.inl ⟨_, rfl, rfl⟩
    · exact Or.inr ⟨M, rfl, rfl⟩
  have hmat : kind ∉ ["cent", "wcent", "lcent", "dsg", "dsl"] →
      Moved σ (fromMatrix env kind metric D) (fromMatrix env' kind metric (fun i j => D (σ i) (σ j))) →
      Moved σ (secondary env (.init D classes (packV v) metric) kind)
        (secondary env' (.init (fun i j => D (σ i) (σ j)) classes' (packV (moveV σ v)) metric) kind) := by
    intro hno h
    unfold secondary
    rw [if_neg hno, if_neg hno]
    exact hun _ _ h
  have hvec : kind ∈ ["cent", "wcent", "lcent", "dsg", "dsl"] →
      (∀ d X, v = some ⟨d, X⟩ → Moved σ (fromVectors env kind (some ⟨n, d, X⟩)) (fromVectors env' kind (some ⟨n, d, fun i => X (σ i)⟩))) →
      Moved σ (secondary env (.init D classes (packV v) metric) kind)
        (secondary env' (.init (fun i j => D (σ i) (σ j)) classes' (packV (moveV σ v)) metric) kind) := by
    intro hyes h
    unfold secondary
    rw [if_pos hyes, if_pos hyes]
    rcases v with _ | ⟨d, X⟩
    · left
      change ∃ e, fromVectors env kind none = .error e ∧ fromVectors env' kind none = .error e
      unfold fromVectors
      by_cases hl : kind = "lcent"
      · exact ⟨.typeError, by simp [hl], by simp [hl]⟩
      · exact ⟨.attributeError, by simp [hl], by simp [hl]⟩
    · exact h d X rfl
  rcases hk with hk | ⟨hk, hsym⟩ | ⟨hk, rfl, hsym, hnn, h7, hz⟩ | ⟨rfl, h10, ht⟩ | ⟨rfl, h40, ht⟩ | ⟨rfl, h10, ht⟩
  · simp only [List.mem_cons, List.not_mem_nil, or_false] at hk
    rcases hk with rfl | rfl | rfl | rfl
    · exact hmat (by simp) (orig_moved env env' D metric σ)
    · exact hvec (by simp) fun d X _ => cosine_moved env env' X σ hn _ (Or.inl rfl)
    · exact hvec (by simp) fun d X _ => cosine_moved env env' X σ hn _ (Or.inr rfl)
    · exact hvec (by simp) fun d X _ => dsg_moved env env' X σ hn
  · simp only [List.mem_cons, List.not_mem_nil, or_false] at hk
    rcases hk with rfl | rfl | rfl
    · exact hmat (by simp) (mp_moved env env' D hsym metric hm σ)
    · exact hmat (by simp) (gauss_moved env env' hd D hsym metric hm σ _ (Or.inl rfl))
    · exact hmat (by simp) (gauss_moved env env' hd D hsym metric hm σ _ (Or.inr rfl))
  · simp only [List.mem_cons, List.not_mem_nil, or_false] at hk
    exact hmat (by rcases hk with rfl | rfl <;> simp) (ls_moved env env' D hsym hnn h7 hz σ kind hk)
  · exact hmat (by simp) (snn_moved env env' D h10 ht metric hm σ)
  · exact hvec (by simp) fun d X e => lcent_moved env env' X σ h40 (ht d X e)
  · exact hvec (by simp) fun d X e => dsl_moved env env' X σ h10 (ht d X e).1 (ht d X e).2

/-- **C248**: the secondary distances of renumbered points are the renumbered secondary distances, for all other random numbers, parallel
schedules and orders of ties. If these distances have no ties, hubness, anti-hubs and largest hub are the same; if they are symmetric, the
Goodman-Kruskal index is the same; if they are finite and have no ties, the accuracies are the same. -/
theorem C248_renumbering (env env' : Env) (hd : env'.dists = env.dists) {n : ℕ} (D : Fin n → Fin n → ℝ) (y : Option (Fin n → ℤ))
    (v : Option (Σ d : ℕ, Fin n → Fin d → ℝ)) (metric kind : String) (hk : Renumberable D v metric kind) (σ : Equiv.Perm (Fin n))
    (hubK knnK hubK' knnK' : List ℤ) (t t' : ℕ) (e e' : Experiment)
    (h : experiment env (.init D (packC y) (packV v) metric) hubK knnK t kind = .ok e)
    (h' : experiment env' (.init (fun i j => D (σ i) (σ j)) (packC (moveC σ y)) (packV (moveV σ v)) metric) hubK' knnK' t' kind = .ok e') :
    ∃ M : Fin n → Fin n → XR ℝ, e.secondary = .mat false n n M ∧ e'.secondary = .mat false n n (fun i j => M (σ i) (σ j)) ∧
      (Hubness.TieFree metric M → ∀ k ∈ hubK, k ∈ hubK' →
        e'.hubness k = e.hubness k ∧ e'.antiHubs k = e.antiHubs k ∧ e'.maxHub k = e.maxHub k) ∧
      ((∀ i j, M i j = M j i) → e'.gk = e.gk) ∧
      ∀ x : Fin n → Fin n → ℝ, M = (fun i j => .fin (x i j)) → (∀ i a b, a ≠ i → b ≠ i → x i a = x i b → a = b) → 2 ≤ n →
        ∀ k ∈ knnK, k ∈ knnK' → 1 ≤ k → e'.knnAccuracy k = e.knnAccuracy k := by
  have hf := experiment_inv h
  have hf' := experiment_inv h'
  obtain ⟨M, hM, hM'⟩ : ∃ M : Fin n → Fin n → XR ℝ, e.secondary = .mat false n n M ∧
      e'.secondary = .mat false n n (fun i j => M (σ i) (σ j)) := by
    obtain ⟨M, hM⟩ : ∃ M : Fin n → Fin n → XR ℝ, e.secondary = .mat false n n M := hf.shape
    obtain ⟨M', hM'⟩ : ∃ M : Fin n → Fin n → XR ℝ, e'.secondary = .mat false n n M := hf'.shape
    rcases Nat.eq_zero_or_pos n with rfl | hn
    · exact ⟨M, hM, hM'.trans (by congr 1; funext i; exact i.elim0)⟩
    · rcases secondary_moved env env' hd hn D (packC y) (packC (moveC σ y)) v metric hf.valid.metric kind hk σ with
        ⟨err, h1, -⟩ | ⟨M, h1, h2⟩
      · rw [hf.sec] at h1
        cases h1
      · exact ⟨M, Except.ok.inj (hf.sec.symm.trans h1), Except.ok.inj (hf'.sec.symm.trans h2)⟩
  refine ⟨M, hM, hM', ?_, ?_, ?_⟩
  · intro htf k hk hk'
    obtain ⟨rnd, m, r, h0, h1, h2, h3⟩ := hf.hub k hk
    obtain ⟨rnd', m', r', h0', h1', h2', h3'⟩ := hf'.hub k hk'
    rw [hM] at h0
    rw [hM'] at h0'
    change Hubness.hubness _ _ _ _ k metric 1 false true = _ at h0
    change Hubness.hubness _ _ _ _ k metric 1 false true = _ at h0'
    rw [(Hubness.C01_hubness_argument env.part rnd env.sched k metric 1 false true (by simp)).2.2] at h0
    rw [(Hubness.C01_hubness_argument env'.part rnd' env'.sched k metric 1 false true (by simp)).2.2] at h0'
    obtain ⟨q, hr, h0⟩ := map_ok h0
    obtain ⟨q', hr', h0'⟩ := map_ok h0'
    obtain rfl : m = n := by injection h0
    obtain rfl : r = q := by injection h0
    obtain rfl : m' = m := by injection h0'
    obtain rfl : r' = q' := by injection h0'
    obtain ⟨-, -, hN, hS⟩ := Hubness.C07_relabelling env.part env'.part rnd rnd' env.sched env'.sched false false
      _ k metric 1 1 false false true true htf σ r r' hr hr'
    have hc : Hubness.Covered 1 metric m' m' := by simp [Hubness.Covered]
    have l1 := (Hubness.C03_k_occurrence env.part rnd env.sched false _ k metric 1 false true hc r hr).1
    have l2 := (Hubness.C03_k_occurrence env'.part rnd' env'.sched false _ k metric 1 false true hc r' hr').1
    have hp := perm_of_getElem r.Nk r'.Nk l1 l2 σ hN
    refine ⟨?_, ?_, ?_⟩
    · rw [h1, h1', hS]
    · rw [h2, h2', (hp.filter _).length_eq]
      rfl
    · rw [h3, h3', foldr_max_perm hp]
      rfl
  · intro hsym
    rcases y with _ | y
    · rw [(hf.unlabelled rfl).2, (hf'.unlabelled rfl).2]
    · obtain ⟨-, -, g, hg, h1⟩ := hf.knn n y rfl
      obtain ⟨-, -, g', hg', h1'⟩ := hf'.knn n (fun i => y (σ i)) rfl
      rw [hM] at hg
      rw [hM'] at hg'
      change GK.index _ _ metric = _ at hg
      change GK.index _ _ metric = _ at hg'
      rw [GK.C17_relabelling M y metric σ hsym, hg] at hg'
      rw [h1, h1', Except.ok.inj hg']
  · rintro x rfl hties hn k hk hk' h1
    rcases y with _ | y
    · rw [(hf.unlabelled rfl).1, (hf'.unlabelled rfl).1]
    · obtain ⟨rnd, m, r, h0, ha⟩ := (hf.knn n y rfl).1 k hk
      obtain ⟨rnd', m', r', h0', ha'⟩ := (hf'.knn n (fun i => y (σ i)) rfl).1 k hk'
      rw [hM] at h0
      rw [hM'] at h0'
      obtain ⟨q, q', hq, hq', hall⟩ := Relations.C169_score env.srt env'.srt env.part env'.part rnd rnd' hn x
        (fun i j => x (σ i) (σ j)) y (fun i => y (σ i)) [k] (by simpa using h1) metric hf.valid.metric hties σ
        (fun i a b _ _ => Iff.rfl) id Function.injective_id (fun _ => rfl)
      have e1 : (⟨m, r⟩ : Σ n : ℕ, Knn.Res ℝ n) = ⟨n, q⟩ := Except.ok.inj (h0.symm.trans hq)
      have e2 : (⟨m', r'⟩ : Σ n : ℕ, Knn.Res ℝ n) = ⟨n, q'⟩ := Except.ok.inj (h0'.symm.trans hq')
      obtain rfl : m = n := by injection e1
      obtain rfl : r = q := by injection e1
      obtain rfl : m' = m := by injection e2
      obtain rfl : r' = q' := by injection e2
      obtain ⟨p, p', hp, hp', -, hacc⟩ := hall 0 (by simp)
      rw [ha, ha', headD_acc hp hp' hacc]

/-- **C248**: if the experiment finishes, it finishes for renumbered points, too. -/
theorem C248_finishes (env env' : Env) (hd : env'.dists = env.dists) {n : ℕ} (hn : 0 < n) (D : Fin n → Fin n → ℝ) (y : Option (Fin n → ℤ))
    (v : Option (Σ d : ℕ, Fin n → Fin d → ℝ)) (metric kind : String) (hk : Renumberable D v metric kind) (σ : Equiv.Perm (Fin n))
    (hubK knnK hubK' knnK' : List ℤ) (hpos : ∀ k ∈ hubK', 0 ≤ k) (t t' : ℕ) (e : Experiment)
    (h : experiment env (.init D (packC y) (packV v) metric) hubK knnK t kind = .ok e) :
    ∃ e', experiment env' (.init (fun i j => D (σ i) (σ j)) (packC (moveC σ y)) (packV (moveV σ v)) metric) hubK' knnK' t' kind =
      .ok e' := by
  have hf := experiment_inv h
  have hv : Valid (.init (fun i j => D (σ i) (σ j)) (packC (moveC σ y)) (packV (moveV σ v)) metric) kind := by
    refine ⟨rfl, hf.valid.metric, hf.valid.kind, ?_, ?_⟩
    · intro l z hz
      rcases y with _ | y
      · cases hz
      · exact congrArg Sigma.fst (Option.some.inj hz)
    · intro l d X hX
      rcases v with _ | v
      · cases hX
      · exact congrArg Sigma.fst (Option.some.inj hX)
  rcases secondary_moved env env' hd hn D (packC y) (packC (moveC σ y)) v metric hf.valid.metric kind hk σ with
    ⟨err, h1, -⟩ | ⟨M, -, h2⟩
  · rw [hf.sec] at h1
    cases h1
  · exact experiment_ok env' _ hubK' knnK' t' kind hv hn hpos _ h2

/-! ### The statements are not vacuous -/

theorem two_pow_gap {i a b : ℕ} (h : |(2 : ℝ) ^ i - 2 ^ a| = |(2 : ℝ) ^ i - 2 ^ b|) : a = b := by
  have key : ∀ a b : ℕ, (2 : ℕ) ^ a + 2 ^ b = 2 ^ (i + 1) → ¬ a < b := by
    intro a b h hab
    have h1 : (2 : ℕ) ^ a < 2 ^ b := Nat.pow_lt_pow_right (by norm_num) hab
    have h2 : (2 : ℕ) ^ b < 2 ^ (i + 1) := by have := Nat.two_pow_pos a; omega
    have h3 : (2 : ℕ) ^ (i + 1) < 2 ^ (b + 1) := by rw [pow_succ 2 b]; omega
    rw [Nat.pow_lt_pow_iff_right (by norm_num)] at h2 h3
    omega
  rcases abs_eq_abs.1 h with h | h
  · exact pow_right_injective₀ (by norm_num : (0 : ℝ) < 2) (by norm_num) (by linarith : (2 : ℝ) ^ a = 2 ^ b)
  · have e : (2 : ℝ) ^ a + 2 ^ b = 2 ^ (i + 1) := by rw [pow_succ]; linarith
    have e' : (2 : ℕ) ^ a + 2 ^ b = 2 ^ (i + 1) := by exact_mod_cast e
    have := key a b e'
    have := key b a (by omega)
    omega

/-- Distances of points on a line without ties. -/
theorem line_ties (n : ℕ) (i a b : Fin n) (h : |(2 : ℝ) ^ i.val - 2 ^ a.val| = |(2 : ℝ) ^ i.val - 2 ^ b.val|) : a = b :=
  Fin.ext (two_pow_gap h)

example (metric : String) : Renumberable (fun i j : Fin 11 => |(2 : ℝ) ^ i.val - 2 ^ j.val|) none metric "snn" :=
  Or.inr (Or.inr (Or.inr (Or.inl ⟨rfl, by norm_num, fun i a b _ _ h => line_ties 11 i a b h⟩)))

example : Renumberable (fun i j : Fin 11 => |(2 : ℝ) ^ i.val - 2 ^ j.val|) none "distance" "nicdm" := by
  refine Or.inr (Or.inr (Or.inl ⟨by simp, rfl, fun i j => abs_sub_comm _ _, fun _ _ => abs_nonneg _, by norm_num, fun i => ?_⟩))
  rw [Finset.filter_eq_empty_iff.2, Finset.card_empty]
  · norm_num
  · intro j hj h
    refine (Finset.mem_erase.1 hj).1 (line_ties 11 i j i ?_)
    beta_reduce at h
    rw [h, sub_self, abs_zero]

example (D : Fin 11 → Fin 11 → ℝ) (metric : String) :
    Renumberable D (some ⟨1, fun i _ => (2 : ℝ) ^ i.val⟩) metric "dsl" := by
  refine Or.inr (Or.inr (Or.inr (Or.inr (Or.inr ⟨rfl, by norm_num, fun d X hX => ?_⟩))))
  simp only [Option.some.injEq, Sigma.mk.injEq] at hX
  obtain ⟨rfl, hX⟩ := hX
  obtain rfl := eq_of_heq hX
  refine ⟨one_pos, fun i a b _ _ h => line_ties 11 i a b ?_⟩
  simpa [Spec.sq, sq_eq_sq_iff_abs_eq_abs] using h

/-- Forty vectors of the unit circle. -/
noncomputable def fan (i : Fin 40) : Fin 2 → ℝ := ![Real.cos (2 ^ i.val / 2 ^ 40), Real.sin (2 ^ i.val / 2 ^ 40)]

theorem fan_cosine (i j : Fin 40) : Spec.cosine (fan i) (fan j) = Real.cos (|(2 : ℝ) ^ i.val - 2 ^ j.val| / 2 ^ 40) := by
  have hn : ∀ i, Spec.norm (fan i) = 1 := by
    intro i
    unfold Spec.norm Spec.inner
    rw [Fin.sum_univ_two]
    change √(Real.cos _ * Real.cos _ + Real.sin _ * Real.sin _) = 1
    rw [← pow_two, ← pow_two, Real.cos_sq_add_sin_sq, Real.sqrt_one]
  unfold Spec.cosine
  rw [hn, hn]
  unfold Spec.inner
  rw [Fin.sum_univ_two]
  change (Real.cos _ * Real.cos _ + Real.sin _ * Real.sin _) / (1 * 1) = _
  rw [← Real.cos_sub, one_mul, div_one, ← Real.cos_abs, ← sub_div, abs_div, abs_of_pos (by positivity : (0 : ℝ) < 2 ^ 40)]

example (D : Fin 40 → Fin 40 → ℝ) (metric : String) : Renumberable D (some ⟨2, fan⟩) metric "lcent" := by
  refine Or.inr (Or.inr (Or.inr (Or.inr (Or.inl ⟨rfl, le_rfl, fun d X hX i a b h => ?_⟩))))
  simp only [Option.some.injEq, Sigma.mk.injEq] at hX
  obtain ⟨rfl, hX⟩ := hX
  obtain rfl := eq_of_heq hX
  simp only [fan_cosine] at h
  have hb : ∀ c : Fin 40, |(2 : ℝ) ^ i.val - 2 ^ c.val| / 2 ^ 40 ∈ Set.Icc 0 Real.pi := by
    intro c
    refine ⟨by positivity, ?_⟩
    have h1 : ∀ c : Fin 40, (2 : ℝ) ^ c.val ≤ 2 ^ 40 := fun c => pow_le_pow_right₀ (by norm_num) c.isLt.le
    have h2 : ∀ c : Fin 40, (0 : ℝ) < 2 ^ c.val := fun c => by positivity
    have h3 : |(2 : ℝ) ^ i.val - 2 ^ c.val| ≤ 2 ^ 40 := abs_le.2 ⟨by linarith [h1 c, h2 i], by linarith [h1 i, h2 c]⟩
    have : |(2 : ℝ) ^ i.val - 2 ^ c.val| / 2 ^ 40 ≤ 1 := (div_le_one (by positivity)).2 h3
    linarith [Real.pi_gt_three]
  have := Real.injOn_cos (hb a) (hb b) h
  exact line_ties 40 i a b (by
    have h4 : (2 : ℝ) ^ 40 ≠ 0 := by positivity
    exact (div_left_inj' h4).1 this)

/-- The hypotheses hold together for eleven labelled points in reverse order. -/
example (env : Env) : ∃ e e' : Experiment,
    experiment env (.init (fun i j : Fin 11 => |(2 : ℝ) ^ i.val - 2 ^ j.val|) (packC (some (fun i : Fin 11 => (i.val : ℤ) % 2)))
      (packV (n := 11) (some ⟨1, fun i _ => (2 : ℝ) ^ i.val⟩)) "distance") [5] [1] 0 "orig" = .ok e ∧
    experiment env (.init (fun i j : Fin 11 => |(2 : ℝ) ^ (Fin.revPerm i).val - 2 ^ (Fin.revPerm j).val|)
      (packC (moveC Fin.revPerm (some (fun i : Fin 11 => (i.val : ℤ) % 2))))
      (packV (n := 11) (moveV Fin.revPerm (some ⟨1, fun i _ => (2 : ℝ) ^ i.val⟩))) "distance") [5] [1] 0 "orig" = .ok e' := by
  obtain ⟨e, he⟩ := experiment_ok env (.init (fun i j : Fin 11 => |(2 : ℝ) ^ i.val - 2 ^ j.val|) (packC (some (fun i : Fin 11 => (i.val : ℤ) % 2)))
    (packV (n := 11) (some ⟨1, fun i _ => (2 : ℝ) ^ i.val⟩)) "distance") [5] [1] 0 "orig" ⟨rfl, Or.inl rfl, by decide,
      (fun l z hz => congrArg Sigma.fst (Option.some.inj hz)), (fun l d X hX => congrArg Sigma.fst (Option.some.inj hX))⟩
      (by change 0 < 11; norm_num) (by decide) _ rfl
  obtain ⟨e', he'⟩ := C248_finishes env env rfl (by norm_num) _ _ _ "distance" "orig" (Or.inl (by simp)) Fin.revPerm [5] [1] [5] [1]
    (by decide) 0 0 e he
  exact ⟨e, e', he, he'⟩

end HubToolbox.Analysis
