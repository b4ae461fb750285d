import Verif.LS.Lemmas
import Verif.MPPar.Model
import Verif.Cent.Props

/-!
# C239: test indices counted from the end
-/

set_option autoImplicit false

namespace HubToolbox.Spec

/-- The objects which are not in the test set, whose negative indices count from the end. -/
def trainingWrapped (n : ℕ) (t : List ℤ) : Finset (Fin n) :=
  Finset.univ.filter fun c => ∀ x ∈ t, x ≠ c.val ∧ x + n ≠ c.val

end HubToolbox.Spec

namespace HubToolbox.Relations

open HubToolbox

theorem trainInd_filter (n : ℕ) (t : List ℤ) :
    LS.trainInd n (some (t.filter fun x => decide (0 ≤ x))) = LS.trainInd n (some t) := by
  unfold LS.trainInd
  refine List.filter_congr fun c _ => ?_
  simp only [List.mem_filter, decide_eq_true_eq, Nat.cast_nonneg, and_true]

/-- **C239** does not hold: negative test indices are ignored by all functions which hold out rows. -/
theorem C239_ignored (wL : LS.World) (F : MPPar.Dists) (t : List ℤ) :
    (∀ (D : PyMat (XR ℝ)) (k : ℤ) (metric : String) (nJobs : ℤ),
      LS.localScaling wL D k metric (some t) nJobs = LS.localScaling wL D k metric (some (t.filter fun x => decide (0 ≤ x))) nJobs) ∧
    (∀ (D : PyMat (XR ℝ)) (k : ℕ) (metric : String) (nJobs : ℤ),
      LS.nicdm wL D k metric (some t) nJobs = LS.nicdm wL D k metric (some (t.filter fun x => decide (0 ≤ x))) nJobs) ∧
    (∀ (D : PyMat ℝ) (metric : String) (ss mn : ℤ),
      MPPar.gaussi F D metric ss mn (some t) none = MPPar.gaussi F D metric ss mn (some (t.filter fun x => decide (0 ≤ x))) none) ∧
    (∀ (D : PyMat ℝ) (metric : String) (mn : ℤ),
      MPPar.gammai F D metric mn (some t) = MPPar.gammai F D metric mn (some (t.filter fun x => decide (0 ≤ x)))) ∧
    (∀ {n m : ℕ} (X : Fin n → Fin m → ℝ) (metric : String),
      Cent.centering X metric (some t) = Cent.centering X metric (some (t.filter fun x => decide (0 ≤ x)))) ∧
    (∀ {n m : ℕ} (X : Fin n → Fin m → ℝ) (metric : String) (gamma : ℝ),
      Cent.weightedCentering X metric gamma (some t) =
        Cent.weightedCentering X metric gamma (some (t.filter fun x => decide (0 ≤ x)))) := by
  refine ⟨?_, ?_, ?_, ?_, ?_, ?_⟩
  · intro D k metric nJobs
    simp only [LS.localScaling, LS.core, trainInd_filter]
  · intro D k metric nJobs
    simp only [LS.nicdm, LS.nicdmCore, trainInd_filter]
  · intro D metric ss mn
    simp only [MPPar.gaussi, trainInd_filter]
  · intro D metric mn
    cases D <;> simp only [MPPar.gammai, trainInd_filter]
  · intro n m X metric
    simp only [Cent.centering, trainInd_filter, Option.isSome_some]
  · intro n m X metric gamma
    simp only [Cent.weightedCentering, trainInd_filter]

/-- **C239** does not hold: if only negative indices are given, Local Scaling, NICDM and Mutual Proximity hold out nothing. -/
theorem C239_none_held_out (wL : LS.World) (F : MPPar.Dists) (t : List ℤ) (ht : ∀ x ∈ t, x < 0) :
    (∀ (D : PyMat (XR ℝ)) (k : ℤ) (metric : String) (nJobs : ℤ),
      LS.localScaling wL D k metric (some t) nJobs = LS.localScaling wL D k metric none nJobs) ∧
    (∀ (D : PyMat (XR ℝ)) (k : ℕ) (metric : String) (nJobs : ℤ),
      LS.nicdm wL D k metric (some t) nJobs = LS.nicdm wL D k metric none nJobs) ∧
    (∀ (D : PyMat ℝ) (metric : String) (ss mn : ℤ),
      MPPar.gaussi F D metric ss mn (some t) none = MPPar.gaussi F D metric ss mn none none) ∧
    (∀ (D : PyMat ℝ) (metric : String) (mn : ℤ), MPPar.gammai F D metric mn (some t) = MPPar.gammai F D metric mn none) := by
  have h : ∀ n, LS.trainInd n (some t) = LS.trainInd n none := by
    intro n
    unfold LS.trainInd
    refine List.filter_eq_self.2 fun c _ => ?_
    simp only [decide_eq_true_eq]
    intro hc
    have := ht _ hc
    omega
  refine ⟨?_, ?_, ?_, ?_⟩
  · intro D k metric nJobs
    simp only [LS.localScaling, LS.core, h]
  · intro D k metric nJobs
    simp only [LS.nicdm, LS.nicdmCore, h]
  · intro D metric ss mn
    simp only [MPPar.gaussi, h]
  · intro D metric mn
    cases D <;> simp only [MPPar.gammai, h]

/-- **C239** holds exactly if every object given by a negative index is given by its non-negative index, too. -/
theorem C239_exact (n : ℕ) (t : List ℤ) :
    (LS.trainInd n (some t)).toFinset = Spec.trainingWrapped n t ↔ ∀ x ∈ t, -(n : ℤ) ≤ x → x < 0 → x + n ∈ t := by
  have hmem : ∀ c : Fin n, c ∈ (LS.trainInd n (some t)).toFinset ↔ (c.val : ℤ) ∉ t := by
    intro c
    simp [LS.trainInd]
  constructor
  · intro h x hx h1 h2
    by_contra hn
    have hc : (x + n).toNat < n := by omega
    have hv : (((x + n).toNat : ℕ) : ℤ) = x + n := by omega
    have : (⟨(x + n).toNat, hc⟩ : Fin n) ∈ (LS.trainInd n (some t)).toFinset := (hmem _).2 (by rw [hv]; exact hn)
    rw [h] at this
    exact ((Finset.mem_filter.1 this).2 x hx).2 hv.symm
  · intro h
    ext c
    rw [hmem]
    simp only [Spec.trainingWrapped, Finset.mem_filter, Finset.mem_univ, true_and]
    constructor
    · intro hc x hx
      refine ⟨fun e => hc (e ▸ hx), fun e => hc ?_⟩
      have := h x hx (by omega) (by have := c.isLt; omega)
      rwa [e] at this
    · intro hc hx
      exact (hc _ hx).1 rfl

/-- **C239** for non-negative indices: the training set is what is left without them. -/
theorem C239_partial (n : ℕ) (t : List ℤ) (ht : ∀ x ∈ t, 0 ≤ x) :
    (LS.trainInd n (some t)).toFinset = Spec.trainingWrapped n t :=
  (C239_exact n t).2 fun x hx _ h => absurd (ht x hx) (not_le.2 h)

/-- **C239** does not hold: the last of three numbers is to be held out, but has an influence on the centroid. -/
theorem C239_violated : Cent.centering (![![1], ![3], ![8]] : Fin 3 → Fin 1 → ℚ) "vector" (some [-1]) =
      .ok (fun i f => .fin ((![![-3], ![-1], ![4]] : Fin 3 → Fin 1 → ℚ) i f)) ∧
    Cent.centering (![![1], ![3], ![8]] : Fin 3 → Fin 1 → ℚ) "vector" (some [2]) =
      .ok (fun i f => .fin ((![![-1], ![1], ![6]] : Fin 3 → Fin 1 → ℚ) i f)) := by
  constructor
  · rw [Cent.C37_formula _ _ (by decide)]
    congr 1
    funext i f
    revert i f
    decide +kernel
  · rw [Cent.C37_formula _ _ (by decide)]
    congr 1
    funext i f
    revert i f
    decide +kernel

/-- Test sets with negative indices for which the code is right and wrong. -/
example : (LS.trainInd 4 (some [-1, 3, 0])).toFinset = Spec.trainingWrapped 4 [-1, 3, 0] ∧
    (LS.trainInd 4 (some [-1, 0])).toFinset ≠ Spec.trainingWrapped 4 [-1, 0] := by decide

end HubToolbox.Relations
