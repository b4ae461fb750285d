import Verif.Heap.HubnessProps
import Verif.Heap.KnnProps
import Verif.Heap.GammaiProps
import Verif.Heap.DisSimProps
import Verif.Heap.SuQHRProps
import Verif.Heap.ScalingProps
import Verif.Heap.MPProps
import Verif.Heap.SampleProps
import Verif.Heap.SNNProps

/-!
# The theorems about memory, applied to concrete arrays
-/

set_option autoImplicit false

namespace HubToolbox.Heap.Examples

open HubToolbox HubToolbox.Heap

/-- An array in buffer `b`. -/
def arr (b n m : ℕ) : Arr n m := fun i j => (b, i.val, j.val)

theorem arr_simple (b n m : ℕ) : Simple (arr b n m) := by
  intro i i' j j' e
  simp only [arr, Prod.mk.injEq, true_and] at e
  exact ⟨Fin.ext e.1, Fin.ext e.2⟩

/-- Three buffers with the distances of the points `0`, `1`, `3` and so on. -/
def mem (K : Type) [Field K] : Mem (XR K) :=
  ⟨fun c => .fin ((((c.2.1 * (c.2.1 + 1) / 2 : ℕ) : K) - ((c.2.2 * (c.2.2 + 1) / 2 : ℕ) : K)) ^ 2), 3⟩

/-- Every worker has run all other tasks. -/
def busy (n : ℕ) : Workers n where
  before i := (List.finRange n).filter (· ≠ i)
  other i := by simp

-- the caller's matrix, a transposed view of it, and any other array are the same after `hubness`
example (o : ArgPart (XR ℚ)) (rnd : Hubness.Rnd) (sched : Hubness.Schedule) (i j : Fin 3) :
    (hubnessH o rnd sched (busy 3) false (fun i j => arr 0 3 3 j i) 1 "distance" 2 true false (mem ℚ)).2.cell (arr 0 3 3 i j)
      = .fin ((((i.val * (i.val + 1) / 2 : ℕ) : ℚ) - ((j.val * (j.val + 1) / 2 : ℕ) : ℚ)) ^ 2) :=
  C196_hubness o rnd sched (busy 3) false _ 1 "distance" 2 true false (mem ℚ) _ (show 0 < 3 by decide)

-- `hubness` of a view in which all rows are the same memory
example (o : ArgPart (XR ℚ)) (rnd : Hubness.Rnd) (sched : Hubness.Schedule) :
    (hubnessH o rnd sched (busy 3) false (fun _ j => arr 0 3 3 0 j) 1 "distance" 2 true false (mem ℚ)).1
      = Hubness.hubnessMat o rnd sched false (fun (_ j : Fin 3) => (mem ℚ).cell (arr 0 3 3 0 j)) 1 "distance" 2 true false :=
  C197_hubness o rnd sched (busy 3) false _ 1 "distance" 2 true false (mem ℚ)

-- leave-one-out classification of three objects
example (srt : Knn.ArgSort (XR ℚ)) (o : ArgPart (XR ℚ)) (rnd : Knn.Rnd) (i j : Fin 3) :
    (scoreH srt o rnd true (arr 0 3 3) ![0, 1, 1] (.int 1) "distance" none (mem ℚ)).2.cell (arr 0 3 3 i j)
      = (mem ℚ).cell (arr 0 3 3 i j) :=
  C196_score srt o rnd true _ _ _ _ _ (mem ℚ) _ (show 0 < 3 by decide)

example (srt : Knn.ArgSort (XR ℚ)) (o : ArgPart (XR ℚ)) (rnd : Knn.Rnd) :
    (scoreH srt o rnd false (arr 0 3 3) ![0, 1, 1] (.int 1) "distance" none (mem ℚ)).1.map (Sigma.mk 3)
      = Knn.score srt o rnd (.mat false 3 3 fun i j => (mem ℚ).cell (arr 0 3 3 i j)) (.vec 3 ![0, 1, 1]) (.int 1) "distance" none :=
  C197_score srt o rnd false _ _ _ _ _ (mem ℚ)

-- distances to a sample of one object: nothing changes, unless the matrix is sparse, then its distance to itself does
example (srt : Knn.ArgSort (XR ℚ)) (rnd : Knn.Rnd) (i : Fin 3) :
    (scoreSampleH srt rnd (arr 1 3 1) ![0, 1, 1] (.int 1) "distance" (fun _ => 0) (mem ℚ)).2.cell (arr 1 3 1 i 0)
      = (mem ℚ).cell (arr 1 3 1 i 0) :=
  C196_score_sample srt rnd _ _ _ _ _ (mem ℚ) _ (show 1 < 3 by decide)

example (srt : Knn.ArgSort (XR ℚ)) (rnd : Knn.Rnd) (i : Fin 3) :
    (predictSampleH srt rnd false (arr 1 3 1) (fun i (_ : Fin 1) => i.val) (.int 1) "distance" (fun _ => 0) (mem ℚ)).2.cell (arr 1 3 1 i 0)
      = (mem ℚ).cell (arr 1 3 1 i 0) :=
  C198_sample_partial srt rnd _ _ _ _ _ (mem ℚ) _ (show 1 < 3 by decide)

example (srt : Knn.ArgSort (XR ℚ)) (rnd : Knn.Rnd) :
    (mem ℚ).cell (arr 1 3 1 0 0) = .fin 0 ∧
    (predictSampleH srt rnd true (arr 1 3 1) (fun i (_ : Fin 1) => i.val) (.int 1) "distance" (fun _ => 0) (mem ℚ)).2.cell (arr 1 3 1 0 0)
      = .pinf := by
  refine ⟨by decide +kernel, ?_⟩
  rw [C198_violated srt rnd _ (arr_simple 1 3 1) _ (.int 1) (by simp) _ (Or.inl rfl) _ (mem ℚ) (fun _ _ => show 1 < 3 by decide)]
  simp

example (srt : Knn.ArgSort (XR ℚ)) (rnd : Knn.Rnd) :
    (predictH srt rnd true (arr 0 3 3) (fun i (_ : Fin 2) => i.val) (.int 1) "distance" none (mem ℚ)).1
      = Knn.predict srt rnd (fun i j => (mem ℚ).cell (arr 0 3 3 i j)) (fun i (_ : Fin 2) => (i.val : ℤ)) (.int 1) "distance" none :=
  C197_predict srt rnd true _ (arr_simple 0 3 3) _ _ _ _ (mem ℚ) (fun _ _ => show 0 < 3 by decide)

-- mutual proximity of three objects, one of them for training
example (F : MPPar.Dists) :
    (gammaiH F "distance" (arr 0 3 3) [1] (mem ℝ)).1
      = .ok (MPPar.gammaiDense F "distance" (fun (i j : Fin 3) =>
        (((i.val * (i.val + 1) / 2 : ℕ) : ℝ) - ((j.val * (j.val + 1) / 2 : ℕ) : ℝ)) ^ 2) [1]) :=
  C197_gammai F "distance" _ _ (mem ℝ) _ fun _ _ => rfl

example (F : MPPar.Dists) (i j : Fin 3) :
    (gammaiH F "distance" (arr 0 3 3) [1] (mem ℝ)).2.cell (arr 0 3 3 i j) = (mem ℝ).cell (arr 0 3 3 i j) :=
  C196_gammai F "distance" _ _ (mem ℝ) _ (show 0 < 3 by decide)

-- DisSim Local of one data set, and of the same array passed twice
example (w : SNN.World ℚ) :
    contents (disSimLocalH w (arr 0 3 2) .float64 none 1 1) (mem ℚ)
      = Cent.disSimLocal w (fun (i : Fin 3) (j : Fin 2) =>
        (((i.val * (i.val + 1) / 2 : ℕ) : ℚ) - ((j.val * (j.val + 1) / 2 : ℕ) : ℚ)) ^ 2) .float64 none 1 1 :=
  C197_disSimLocal w _ _ _ _ (mem ℚ) _ fun _ _ => rfl

example (w : SNN.World ℚ) :
    contents (disSimLocalH w (arr 0 3 2) .float64 (some (.float64, ⟨3, arr 0 3 2⟩)) 1 1) (mem ℚ)
      = Cent.disSimLocal w (fun (i : Fin 3) (j : Fin 2) =>
        (((i.val * (i.val + 1) / 2 : ℕ) : ℚ) - ((j.val * (j.val + 1) / 2 : ℕ) : ℚ)) ^ 2) .float64
          (some (.float64, ⟨3, 2, fun (i : Fin 3) (j : Fin 2) =>
        (((i.val * (i.val + 1) / 2 : ℕ) : ℚ) - ((j.val * (j.val + 1) / 2 : ℕ) : ℚ)) ^ 2⟩)) 1 1 :=
  C197_disSimLocal_two w _ _ _ _ _ _ (mem ℚ) _ _ (fun _ _ => rfl) (fun _ _ => rfl) fun _ _ => show 0 < 3 by decide

example (w : SNN.World ℚ) (i : Fin 3) (j : Fin 2) :
    (disSimLocalH w (arr 0 3 2) .float64 none 1 1 (mem ℚ)).2.cell (arr 0 3 2 i j) = (mem ℚ).cell (arr 0 3 2 i j) :=
  C196_disSimLocal w _ _ _ _ _ (mem ℚ) _ (show 0 < 3 by decide)

-- a fitted estimator with one vantage point does not notice that the caller overwrites the training data
example (cosine : {f : ℕ} → (Fin f → ℚ) → (Fin f → ℚ) → ℚ) :
    ∃ (e : Kept 1 ℚ) (h' : Mem ℚ), fitH "sqeuclidean" true (some ⟨1, fun _ => 1⟩) trainArr (trainTest 1) = (.ok e, h') ∧
      ∀ h'' : Mem ℚ, LeavesAlone (trainTest 1) h' h'' → h''.cell (testArr 0 0) = 2 →
        (transformH cosine "sqeuclidean" e testArr h'').1.map (fun D => (⟨e.s, D⟩ : Σ s : ℕ, Fin 1 → Fin s → ℚ))
          = .ok ⟨1, fun _ _ => 1⟩ := by
  obtain ⟨e, h', he, H⟩ := C199_partial cosine "sqeuclidean" true (some ⟨1, fun _ => 1⟩) (Or.inr rfl) trainArr testArr (trainTest 1)
  refine ⟨e, h', he, fun h'' hl ht => ?_⟩
  rw [H h'' hl]
  congr 2
  funext i j
  have hi : i = 0 := Subsingleton.elim _ _
  subst hi
  show (if "sqeuclidean" = "cosine" then _ else ∑ c : Fin 1, (h''.cell (testArr 0 c) - (trainTest 1).cell (trainArr 1 c)) ^ 2) = (1 : ℚ)
  rw [if_neg (by decide), Fin.sum_univ_one, ht]
  decide +kernel

-- the transposed view of a matrix, and a matrix whose rows all are the same memory
example (w : LS.World) :
    contents (localScalingH w (fun i j => arr 0 3 3 j i) 1 "distance" none 1 >>= fun L => pure ⟨3, L⟩) (mem ℝ)
      = (LS.core w (fun i j => (mem ℝ).cell (arr 0 3 3 j i)) 1 "distance" none 1).map fun V => ⟨3, V⟩ :=
  C197_localScaling w _ 1 "distance" none 1 (mem ℝ)

example (w : LS.World) :
    contents (nicdmH w (fun (_ : Fin 3) j => arr 0 3 3 0 j) 1 (some [1]) 2 >>= fun L => pure ⟨3, L⟩) (mem ℝ)
      = (LS.nicdmCore w (fun _ j => (mem ℝ).cell (arr 0 3 3 0 j)) 1 (some [1]) 2).map fun V => ⟨3, V⟩ :=
  C197_nicdm w _ 1 (some [1]) 2 (mem ℝ)

example (w : LS.World) (i j : Fin 3) :
    (localScalingH w (arr 0 3 3) 1 "similarity" none (-1) (mem ℝ)).2.cell (arr 0 3 3 i j) = (mem ℝ).cell (arr 0 3 3 i j) ∧
    (nicdmH w (arr 0 3 3) 1 none 1 (mem ℝ)).2.cell (arr 0 3 3 i j) = (mem ℝ).cell (arr 0 3 3 i j) :=
  ⟨C196_localScaling w _ 1 _ none (-1) (mem ℝ) _ (show 0 < 3 by decide), C196_nicdm w _ 1 none 1 (mem ℝ) _ (show 0 < 3 by decide)⟩

example :
    contents (empiricH "distance" (arr 0 3 3) >>= fun L => pure ⟨3, L⟩) (mem ℚ)
      = .ok ⟨3, fun i j => .fin (MPEmp.fullDense "distance" (fun i j => (mem ℚ).cell (arr 0 3 3 i j)) i j)⟩ ∧
    ∀ i j, (empiricH "distance" (arr 0 3 3) (mem ℚ)).2.cell (arr 0 3 3 i j) = (mem ℚ).cell (arr 0 3 3 i j) :=
  ⟨C197_empiric "distance" _ (mem ℚ), fun _ _ => C196_empiric "distance" _ (mem ℚ) _ (show 0 < 3 by decide)⟩

example (F : MPPar.Dists) :
    contents (gaussiH F "distance" (arr 0 3 3) [0, 2] >>= fun L => pure ⟨3, L⟩) (mem ℝ)
      = .ok ⟨3, MPPar.gaussiDense F "distance" (fun (i j : Fin 3) =>
        (((i.val * (i.val + 1) / 2 : ℕ) : ℝ) - ((j.val * (j.val + 1) / 2 : ℕ) : ℝ)) ^ 2) [0, 2]⟩ ∧
    ∀ i j, (gaussiH F "distance" (arr 0 3 3) [0, 2] (mem ℝ)).2.cell (arr 0 3 3 i j) = (mem ℝ).cell (arr 0 3 3 i j) :=
  ⟨C197_gaussi F "distance" _ _ (mem ℝ) _ fun _ _ => rfl, fun _ _ => C196_gaussi F "distance" _ _ (mem ℝ) _ (show 0 < 3 by decide)⟩

-- distances to the samples 2 and 0, one test object
example :
    (contentsT (empiricSampleH "distance" (arr 1 3 2) ![2, 0] (some ⟨1, fun _ => 1⟩)) (mem ℚ)).map
        (fun r => MPEmp.Result.sampled r.1 r.2.1 r.2.2)
      = MPEmp.sample (.mat false 3 2 fun i j => (mem ℚ).cell (arr 1 3 2 i j)) (fun j => ((![2, 0] j : Fin 3).val : ℤ)) "distance"
        (some ⟨1, fun _ => 1⟩) :=
  C197_empiric_sample "distance" (Or.inl rfl) (by decide) _ _ (some ⟨1, fun _ => 1⟩) (mem ℚ)

example (F : MPPar.Dists) :
    contentsT (gaussiSampleH F "distance" (arr 1 3 2) ![2, 0] none) (mem ℝ)
      = MPPar.gaussiSample F (.mat false 3 2 fun (i : Fin 3) (j : Fin 2) =>
          (((i.val * (i.val + 1) / 2 : ℕ) : ℝ) - ((j.val * (j.val + 1) / 2 : ℕ) : ℝ)) ^ 2)
          (some ⟨2, fun j => ((![2, 0] j : Fin 3).val : ℤ)⟩) "distance" none :=
  C197_gaussi_sample F "distance" (Or.inl rfl) (by decide) _ _ none (mem ℝ) _ fun _ _ => rfl

example (o : ArgPart (XR ℝ)) :
    contentsT (localScalingSampleH o 1 (arr 1 3 2) ![2, 0] none) (mem ℝ)
      = LS.localScalingSample o (.mat false 3 2 fun i j => (mem ℝ).cell (arr 1 3 2 i j)) 1 "distance"
          (some ⟨2, fun j => ((![2, 0] j : Fin 3).val : ℤ)⟩) none :=
  C197_localScaling_sample o 1 (by decide) _ _ none (mem ℝ)

example (o : ArgPart (XR ℝ)) :
    contentsT (nicdmSampleH o 1 (arr 1 3 2) ![2, 0] (some ⟨1, fun _ => 1⟩)) (mem ℝ)
      = LS.nicdmSample o (.mat false 3 2 fun i j => (mem ℝ).cell (arr 1 3 2 i j)) 1 "distance"
          (some ⟨2, fun j => ((![2, 0] j : Fin 3).val : ℤ)⟩) (some ⟨1, fun _ => 1⟩) :=
  C197_nicdm_sample o 1 (by decide) (by decide) _ _ (some ⟨1, fun _ => 1⟩) (mem ℝ)

example (F : MPPar.Dists) (o : ArgPart (XR ℝ)) (w : SNN.World ℝ) (i : Fin 3) (j : Fin 2) :
    (empiricSampleH "distance" (arr 1 3 2) ![2, 0] none (mem ℝ)).2.cell (arr 1 3 2 i j) = (mem ℝ).cell (arr 1 3 2 i j) ∧
    (gaussiSampleH F "distance" (arr 1 3 2) ![2, 0] none (mem ℝ)).2.cell (arr 1 3 2 i j) = (mem ℝ).cell (arr 1 3 2 i j) ∧
    (localScalingSampleH o 1 (arr 1 3 2) ![2, 0] none (mem ℝ)).2.cell (arr 1 3 2 i j) = (mem ℝ).cell (arr 1 3 2 i j) ∧
    (nicdmSampleH o 1 (arr 1 3 2) ![2, 0] none (mem ℝ)).2.cell (arr 1 3 2 i j) = (mem ℝ).cell (arr 1 3 2 i j) ∧
    (snnSampleH w (arr 1 3 2) 1 "distance" ![2, 0] none 1 (mem ℝ)).2.cell (arr 1 3 2 i j) = (mem ℝ).cell (arr 1 3 2 i j) ∧
    (simhubH w (by decide) (arr 1 3 2) (some ![2, 0]) none 1 true 0 (mem ℝ)).2.cell (arr 1 3 2 i j) = (mem ℝ).cell (arr 1 3 2 i j) :=
  have hc : (arr 1 3 2 i j).1 < (mem ℝ).next := show 1 < 3 by decide
  ⟨C196_empiric_sample _ _ _ _ _ _ hc, C196_gaussi_sample _ _ _ _ _ _ _ hc, C196_localScaling_sample _ _ _ _ _ _ _ hc,
    C196_nicdm_sample _ _ _ _ _ _ _ hc, C196_snn_sample _ _ _ _ _ _ _ _ _ hc, C196_simhub _ _ _ _ _ _ _ _ _ _ hc⟩

example (w : SNN.World ℚ) :
    contentsT (snnH w (fun i j => arr 0 3 3 j i) 1 "distance" 1 >>= fun L => pure ⟨3, L⟩) (mem ℚ)
      = (SNN.core w (fun i j => (mem ℚ).cell (arr 0 3 3 j i)) 1 "distance" 1).map (fun V => ⟨3, 3, V⟩) ∧
    ∀ i j, (snnH w (fun i j => arr 0 3 3 j i) 1 "distance" 1 (mem ℚ)).2.cell (arr 0 3 3 i j) = (mem ℚ).cell (arr 0 3 3 i j) :=
  ⟨C197_snn w _ 1 "distance" 1 (mem ℚ), fun _ _ => C196_snn w _ 1 "distance" 1 (mem ℚ) _ (show 0 < 3 by decide)⟩

example (w : SNN.World ℚ) :
    contentsT (snnSampleH w (arr 1 3 2) 1 "distance" ![2, 0] none 1) (mem ℚ)
      = SNN.snnSample w (.mat false 3 2 fun i j => (mem ℚ).cell (arr 1 3 2 i j)) 1 "distance"
          (some ⟨2, fun j => ((![2, 0] j : Fin 3).val : ℤ)⟩) none 1 :=
  C197_snn_sample w (by decide) _ 1 "distance" (Or.inl rfl) _ none 1 (mem ℚ)

example (w : SNN.World ℝ) :
    contentsT (simhubH w (by decide) (arr 0 3 3) none none 2 true 0) (mem ℝ)
      = SNN.simhub w (.mat false 3 3 fun i j => (mem ℝ).cell (arr 0 3 3 i j)) none none none 2 true 0 :=
  C197_simhub w (by decide) _ none (fun _ => rfl) none 2 (by norm_num) true 0 (mem ℝ)

end HubToolbox.Heap.Examples
