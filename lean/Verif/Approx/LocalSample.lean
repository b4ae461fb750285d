import Verif.Approx.LocalAgree

/-!
# The hypotheses of the theorems on vantage points can be met
-/

set_option autoImplicit false

namespace HubToolbox.Approx

open HubToolbox

/-- Something to instantiate the theorems with: no shuffling, the same random number every time, workers in order. -/
noncomputable def realWorld : World ℝ where
  shuffle h := fun c => c.castLE h.le
  shuffle_inj h := fun a b hab => by simpa using hab
  rand := { randint := fun h => ⟨0, h⟩, sample := fun _ _ => 1 / 2, nonneg := fun _ _ => by norm_num,
            lt_one := fun _ _ => by norm_num }
  trials _ := 2
  trials_pos _ := by decide
  sched l := l
  sched_perm _ := List.Perm.refl _

/-- Squared differences of numbers. -/
def sqr : String → ℝ → ℝ → ℝ := fun _ p q => (p - q) ^ 2

/-- Training objects, the test object is 5. -/
noncomputable def pts : Fin 4 → ℝ := ![0, 1, 3, 7]

theorem pts0 : pts 0 = 0 := rfl
theorem pts1 : pts 1 = 1 := rfl
theorem pts2 : pts 2 = 3 := rfl

example : (∀ p q, 0 ≤ sqr "cosine" p q) ∧ (∀ p, sqr "cosine" p p = 0) ∧ (∀ p q, sqr "cosine" p q = sqr "cosine" q p) :=
  ⟨fun _ _ => sq_nonneg _, fun _ => by simp [sqr], fun _ _ => by unfold sqr; ring⟩

-- C126: a successful call with three of four objects.
example : ∃ out : Out ℝ 1 4, suqhrPlain realWorld sqr "cosine" .random 3 pts (fun _ => 5) = .ok out := ⟨_, rfl⟩

-- C128, C129: also with a spread which is not zero.
example (F : MPPar.Dists) : ∃ out : Out ℝ 1 4, suqhrMPG F realWorld sqr "cosine" .random 3 pts (fun _ => 5) = .ok out :=
  ⟨_, rfl⟩

example : 0 < Spec.stdDev (Finset.univ : Finset (Fin 4)) (fun b => sqr "cosine" 5 (pts b)) := by
  apply Real.sqrt_pos.2
  unfold Spec.variance Spec.meanOver
  simp [Fin.sum_univ_four, sqr, pts]
  norm_num

-- C130, C131, C132: the three vantage points 0, 1, 3.
example : vantage realWorld (fun i j => sqr "cosine" (pts i) (pts j)) "cosine" .random 3 = .ok [0, 1, 2] := rfl

theorem near_test : Spec.IsNearest (Finset.univ : Finset (Fin 3)) (fun c => sqr "cosine" 5 (pts ([0, 1, 2][c.val]))) 1 {2} := by
  refine ⟨Finset.subset_univ _, rfl, ?_⟩
  intro a ha b _ _
  rw [Finset.mem_singleton] at ha
  subst ha
  fin_cases b <;> norm_num [sqr, pts0, pts1, pts2]

theorem near_train : Spec.IsNearest ((Finset.univ : Finset (Fin 3)).erase 1)
    (fun c => sqr "cosine" (pts 1) (pts ([0, 1, 2][c.val]))) 1 {0} := by
  refine ⟨by decide, rfl, ?_⟩
  intro a ha b hb _
  rw [Finset.mem_singleton] at ha
  subst ha
  fin_cases b
  · norm_num [sqr, pts0, pts1, pts2]
  · exact absurd hb (by decide)
  · norm_num [sqr, pts0, pts1, pts2]

example : Spec.IsKthSmallest (Finset.univ : Finset (Fin 3)) (fun c => sqr "cosine" 5 (pts ([0, 1, 2][c.val]))) 1 4 := by
  have := kth_of_nearest near_test 2 (by simp) (by simp)
  have e : sqr "cosine" 5 (pts ([0, 1, 2][(2 : Fin 3).val])) = 4 := by norm_num [sqr, pts0, pts1, pts2]
  rwa [e] at this

example : Spec.IsKthSmallest ((Finset.univ : Finset (Fin 3)).erase 1)
    (fun c => sqr "cosine" (pts 1) (pts ([0, 1, 2][c.val]))) 1 1 := by
  have := kth_of_nearest near_train 0 (by simp) (by simp)
  have e : sqr "cosine" (pts 1) (pts ([0, 1, 2][(0 : Fin 3).val])) = 1 := by norm_num [sqr, pts0, pts1, pts2]
  rwa [e] at this

example : 0 < Spec.meanOver {2} (fun c : Fin 3 => sqr "cosine" 5 (pts ([0, 1, 2][c.val]))) ∧
    0 < Spec.meanOver {0} (fun c : Fin 3 => sqr "cosine" (pts 1) (pts ([0, 1, 2][c.val]))) := by
  unfold Spec.meanOver
  constructor <;> norm_num [sqr, pts0, pts1, pts2]

example : ∀ a b : Fin 3, a ≠ b → 0 < sqr "cosine" (pts ([0, 1, 2][a.val])) (pts ([0, 1, 2][b.val])) := by
  intro a b h
  fin_cases a <;> fin_cases b <;> first | exact absurd rfl h | norm_num [sqr, pts0, pts1, pts2]

-- The complete sort is one of the partial sorts.
example {m : ℕ} (v : Fin m → XR ℝ) (kth : Fin 1 → Fin m) (p q : Fin m) (h : p ≤ q) :
    v ((ArgPart.ofInsertion (XR ℝ)).run v kth p) ≤ v ((ArgPart.ofInsertion (XR ℝ)).run v kth q) := sortPerm_mono v p q h

example : ∃ (out : Out ℝ 1 4), suqhrDSL realWorld (ArgPart.ofInsertion (XR ℝ)) .random 3 1 (fun i => fun _ : Fin 2 => pts i)
    (fun _ _ => 5) = .ok out := by
  obtain ⟨out, h, _⟩ := suqhrDSL_char realWorld (ArgPart.ofInsertion (XR ℝ)) .random 3 1
    (fun i => fun _ : Fin 2 => pts i) (fun (_ : Fin 1) _ => 5) [0, 1, 2] rfl (by decide)
  exact ⟨out, h⟩

-- C133: exact answers for 0, 1, 5 and the test object 2.
example : (∀ i, Spec.ExactAnswer (![![0, 1, 5], ![1, 0, 4], ![5, 4, 0]] i : Fin 3 → ℝ) 2
      ((![[(0, 0), (1, 1)], [(1, 0), (0, 1)], [(2, 0), (1, 4)]] : Fin 3 → Answer ℝ 3) i)) ∧
    Spec.ExactAnswer (![2, 1, 3] : Fin 3 → ℝ) 1 [(1, 1)] := by
  constructor
  · intro i
    fin_cases i <;> refine ⟨by decide, by decide, by simp, by simp, ?_⟩ <;> intro p hp x hx <;>
      simp only [List.map_cons, List.map_nil] at hx <;> fin_cases x <;> simp_all <;>
      rcases hp with rfl | rfl <;> norm_num
  · refine ⟨by decide, by decide, by simp, by simp, ?_⟩
    intro p hp x hx
    fin_cases x <;> simp_all

example : ∀ a b : ℝ, 0 ≤ a → a ≤ b → a ^ 2 ≤ b ^ 2 := fun _ _ ha h => pow_le_pow_left₀ ha h 2

-- C134: one neighbour, different objects.
example (a : Fin 5) (ρ : ℝ) (h : Spec.IsKthSmallest ((Spec.training (4 + 1) (some (testPositions 4 1))).erase a)
    (fun b => sqr "cosine" (Fin.append pts (fun _ : Fin 1 => 5) a) (Fin.append pts (fun _ : Fin 1 => 5) b)) 1 ρ) : 0 < ρ := by
  obtain ⟨⟨j, hj, rfl⟩, _, _⟩ := h
  have hne := (Finset.mem_erase.1 hj).1
  have h5 : Fin.append pts (fun _ : Fin 1 => (5 : ℝ)) = ![0, 1, 3, 7, 5] := by
    funext c
    fin_cases c <;> rfl
  simp only [h5]
  fin_cases a <;> fin_cases j <;> first | exact absurd rfl hne | norm_num [sqr]

end HubToolbox.Approx
