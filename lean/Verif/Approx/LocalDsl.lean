import Verif.Approx.LocalRadii

/-!
# DisSim Local with fixed vantage points
-/

set_option autoImplicit false

namespace HubToolbox.Approx

open HubToolbox

theorem suqhrDSL_char (w : World ℝ) (o : ArgPart (XR ℝ)) (smp : Sampling) (nSamples k : ℕ) {n t f : ℕ}
    (X : Fin n → Fin f → ℝ) (T : Fin t → Fin f → ℝ) (ind : List (Fin n))
    (hv : vantage w (fun i j => sqDist (X i) (X j)) "sqeuclidean" smp nSamples = .ok ind) (hks : k + 1 < ind.length) :
    ∃ out, suqhrDSL w o smp nSamples k X T = .ok out ∧ ∃ he : out.ind = ind,
      ∀ i b, out.dist i b = .fin (sqDist (T i) (X (out.ind.get b))
        - sqDist (T i) (centroidOf (fun a => X (out.ind.get a)) (fun c : Fin k =>
            o.run (fun b => .fin (sqDist (T i) (X (out.ind.get b)))) (fun _ : Fin 1 => ⟨k, by rw [he]; omega⟩)
              ⟨c.val, by rw [he]; omega⟩))
        - sqDist (X (out.ind.get b)) (centroidOf (fun a => X (out.ind.get a)) (fun c : Fin k =>
            o.run (fun b' => .fin (sqDist (X (out.ind.get b)) (X (out.ind.get b'))))
              (fun _ : Fin 1 => ⟨k + 1, by rw [he]; exact hks⟩) ⟨c.val + 1, by rw [he]; omega⟩))) := by
  have h1 := tabulateM_ok (fun a : Fin ind.length =>
    trainKnn o (fun b : Fin ind.length => .fin (sqDist (X (ind.get a)) (X (ind.get b)))) k)
    (fun a c => o.run (fun b => .fin (sqDist (X (ind.get a)) (X (ind.get b)))) (fun _ : Fin 1 => ⟨k + 1, hks⟩)
        ⟨c.val + 1, by omega⟩) (by
      intro a
      unfold trainKnn
      rw [dif_pos hks])
  have h2 := tabulateM_ok (fun i : Fin t =>
    testKnn o (fun b : Fin ind.length => .fin (sqDist (T i) (X (ind.get b)))) k)
    (fun i c => o.run (fun b => .fin (sqDist (T i) (X (ind.get b)))) (fun _ : Fin 1 => ⟨k, by omega⟩)
        ⟨c.val, by omega⟩) (by
      intro a
      unfold testKnn
      rw [dif_pos (by omega)])
  unfold suqhrDSL
  simp only [hv, bind, Except.bind, pure, Except.pure]
  rw [h1, h2]
  exact ⟨_, rfl, rfl, fun i b => rfl⟩

theorem centroidOf_image {n f k : ℕ} (X : Fin n → Fin f → ℝ) (knn : Fin k → Fin n) (hi : Function.Injective knn) :
    centroidOf X knn = Spec.centroid (Finset.univ.image knn) X := by
  funext c
  unfold centroidOf Spec.centroid
  rw [Finset.card_image_of_injective _ hi, Finset.card_univ, Fintype.card_fin,
    Finset.sum_image (fun a _ b _ h => hi h)]

/-- C132 holds if the partial sort is a complete sort and no two vantage points coincide: the secondary distance is
DisSim with the centroid of the `k` vantage points nearest to the test object, and the centroid of the `k` other vantage
points nearest to the vantage point. -/
theorem C132_formula_partial (w : World ℝ) (o : ArgPart (XR ℝ))
    (hsort : ∀ {m : ℕ} (v : Fin m → XR ℝ) (kth : Fin 1 → Fin m) (p q : Fin m), p ≤ q →
      v (o.run v kth p) ≤ v (o.run v kth q))
    (smp : Sampling) (nSamples k : ℕ) {n t f : ℕ}
    (X : Fin n → Fin f → ℝ) (T : Fin t → Fin f → ℝ) (ind : List (Fin n))
    (hv : vantage w (fun i j => sqDist (X i) (X j)) "sqeuclidean" smp nSamples = .ok ind) (hks : k + 1 < ind.length)
    (hdiff : ∀ a b : Fin ind.length, a ≠ b → X (ind.get a) ≠ X (ind.get b)) :
    ∃ out, suqhrDSL w o smp nSamples k X T = .ok out ∧ out.ind = ind ∧
      ∀ i b, ∃ N N' : Finset (Fin out.ind.length),
        Spec.IsNearest Finset.univ (fun c => Spec.sq (T i) (X (out.ind.get c))) k N ∧
        Spec.IsNearest (Finset.univ.erase b) (fun c => Spec.sq (X (out.ind.get b)) (X (out.ind.get c))) k N' ∧
        out.dist i b = .fin (Spec.disSim (T i) (X (out.ind.get b))
          (Spec.centroid N (fun c => X (out.ind.get c))) (Spec.centroid N' (fun c => X (out.ind.get c)))) := by
  obtain ⟨out, ho, he, hd⟩ := suqhrDSL_char w o smp nSamples k X T ind hv hks
  refine ⟨out, ho, he, fun i b => ?_⟩
  have hks' : k + 1 < out.ind.length := by rw [he]; exact hks
  have hdiff' : ∀ a b : Fin out.ind.length, a ≠ b → X (out.ind.get a) ≠ X (out.ind.get b) := by
    intro a b hab
    have := hdiff (a.cast (by rw [he])) (b.cast (by rw [he])) (by
      intro hc
      exact hab (Fin.ext (Fin.mk.inj hc)))
    simpa [he] using this
  have hpos : ∀ c, c ≠ b → 0 < sqDist (X (out.ind.get b)) (X (out.ind.get c)) := by
    intro c hc
    have h0 : 0 ≤ sqDist (X (out.ind.get b)) (X (out.ind.get c)) := Finset.sum_nonneg (fun _ _ => sq_nonneg _)
    refine lt_of_le_of_ne h0 (fun h => hdiff' b c (Ne.symm hc) ?_)
    funext j
    have := (Finset.sum_eq_zero_iff_of_nonneg (fun _ _ => sq_nonneg _)).1 h.symm j (Finset.mem_univ j)
    exact sub_eq_zero.1 (pow_eq_zero_iff (two_ne_zero) |>.1 this)
  have hself : sqDist (X (out.ind.get b)) (X (out.ind.get b)) = 0 := by simp [sqDist]
  rw [hd i b]
  set σ := o.run (fun b' => .fin (sqDist (X (out.ind.get b)) (X (out.ind.get b'))))
              (fun _ : Fin 1 => ⟨k + 1, hks'⟩) with hσ
  have hs : ∀ p q : Fin out.ind.length, p ≤ q →
      sqDist (X (out.ind.get b)) (X (out.ind.get (σ p))) ≤ sqDist (X (out.ind.get b)) (X (out.ind.get (σ q))) := by
    intro p q hpq
    have := hsort (fun b' => .fin (sqDist (X (out.ind.get b)) (X (out.ind.get b')))) (fun _ : Fin 1 => ⟨k + 1, hks'⟩) p q hpq
    rwa [XR.fin_le_fin] at this
  have hfirst : σ ⟨0, by omega⟩ = b := by
    by_contra hc
    have h1 := hs ⟨0, by omega⟩ (σ.symm b) (Nat.zero_le _)
    rw [Equiv.apply_symm_apply, hself] at h1
    exact absurd h1 (not_le.2 (hpos _ hc))
  have hinj : Function.Injective (fun c : Fin k => σ ⟨c.val + 1, by omega⟩) := by
    intro a c hac
    have := Fin.mk.inj (σ.injective hac)
    exact Fin.ext (by omega)
  have hinj' : Function.Injective (fun c : Fin k =>
      o.run (fun b => .fin (sqDist (T i) (X (out.ind.get b)))) (fun _ : Fin 1 => ⟨k, by omega⟩)
        (⟨c.val, by omega⟩ : Fin out.ind.length)) := by
    intro a c hac
    exact Fin.ext (Fin.mk.inj ((o.run _ _).injective hac))
  refine ⟨_, Finset.univ.image (fun c : Fin k => σ ⟨c.val + 1, by omega⟩),
    part_nearest o (fun c => sqDist (T i) (X (out.ind.get c))) k k (by omega) (by omega) le_rfl (by omega), ?_, ?_⟩
  · refine ⟨?_, by rw [Finset.card_image_of_injective _ hinj, Finset.card_univ, Fintype.card_fin], ?_⟩
    · intro a ha
      obtain ⟨c, _, rfl⟩ := Finset.mem_image.1 ha
      refine Finset.mem_erase.2 ⟨fun hc => ?_, Finset.mem_univ _⟩
      rw [← hfirst] at hc
      have := Fin.mk.inj (σ.injective hc)
      omega
    · intro a ha c hc hcN
      obtain ⟨p, _, rfl⟩ := Finset.mem_image.1 ha
      have hne := (Finset.mem_erase.1 hc).1
      have hpos : k < (σ.symm c).val := by
        by_contra hle
        rcases Nat.eq_zero_or_pos (σ.symm c).val with h | h
        · refine hne ?_
          rw [← hfirst]
          have : σ.symm c = ⟨0, by omega⟩ := Fin.ext h
          rw [← this, Equiv.apply_symm_apply]
        · refine hcN (Finset.mem_image.2 ⟨⟨(σ.symm c).val - 1, by omega⟩, Finset.mem_univ _, ?_⟩)
          have : (⟨(σ.symm c).val - 1 + 1, by omega⟩ : Fin out.ind.length) = σ.symm c := Fin.ext (by simp; omega)
          simp only [this, Equiv.apply_symm_apply]
      have := hs ⟨p.val + 1, by omega⟩ (σ.symm c) (by show p.val + 1 ≤ (σ.symm c).val; omega)
      rwa [Equiv.apply_symm_apply] at this
  · rw [centroidOf_image _ _ hinj, centroidOf_image _ _ hinj']
    rfl

/-- C132 is violated: there is a partial sort as numpy promises it, for which with one neighbour the "nearest neighbour"
of every vantage point is the vantage point itself, so that the term which should correct for its hubness vanishes, and
every secondary distance is too large. -/
theorem C132_violated (w : World ℝ) (smp : Sampling) (nSamples : ℕ) {n t f : ℕ}
    (X : Fin n → Fin f → ℝ) (T : Fin t → Fin f → ℝ) (ind : List (Fin n))
    (hv : vantage w (fun i j => sqDist (X i) (X j)) "sqeuclidean" smp nSamples = .ok ind) (hks : 2 < ind.length)
    (hdiff : ∀ a b : Fin ind.length, a ≠ b → X (ind.get a) ≠ X (ind.get b)) :
    ∃ (o : ArgPart (XR ℝ)) (out : Out ℝ t n), suqhrDSL w o smp nSamples 1 X T = .ok out ∧ out.ind = ind ∧
      ∀ i b, ∃ N : Finset (Fin out.ind.length),
        Spec.IsNearest Finset.univ (fun c => Spec.sq (T i) (X (out.ind.get c))) 1 N ∧
        ∀ N' : Finset (Fin out.ind.length),
          Spec.IsNearest (Finset.univ.erase b) (fun c => Spec.sq (X (out.ind.get b)) (X (out.ind.get c))) 1 N' →
          ∃ v, out.dist i b = .fin v ∧ Spec.disSim (T i) (X (out.ind.get b))
            (Spec.centroid N (fun c => X (out.ind.get c))) (Spec.centroid N' (fun c => X (out.ind.get c))) < v := by
  obtain ⟨out, ho, he, hd⟩ := suqhrDSL_char w (swapped (XR ℝ)) smp nSamples 1 X T ind hv hks
  refine ⟨_, out, ho, he, fun i b => ?_⟩
  have hks' : 2 < out.ind.length := by rw [he]; exact hks
  have hdiff' : ∀ a b : Fin out.ind.length, a ≠ b → X (out.ind.get a) ≠ X (out.ind.get b) := by
    intro a b hab
    have := hdiff (a.cast (by rw [he])) (b.cast (by rw [he])) (by
      intro hc
      exact hab (Fin.ext (Fin.mk.inj hc)))
    simpa [he] using this
  have hpos : ∀ c, c ≠ b → 0 < sqDist (X (out.ind.get b)) (X (out.ind.get c)) := by
    intro c hc
    have h0 : 0 ≤ sqDist (X (out.ind.get b)) (X (out.ind.get c)) := Finset.sum_nonneg (fun _ _ => sq_nonneg _)
    refine lt_of_le_of_ne h0 (fun h => hdiff' b c (Ne.symm hc) ?_)
    funext j
    have := (Finset.sum_eq_zero_iff_of_nonneg (fun _ _ => sq_nonneg _)).1 h.symm j (Finset.mem_univ j)
    exact sub_eq_zero.1 (pow_eq_zero_iff (two_ne_zero) |>.1 this)
  have hself : sqDist (X (out.ind.get b)) (X (out.ind.get b)) = 0 := by simp [sqDist]
  have hone : (swapped (XR ℝ)).run (fun b' => .fin (sqDist (X (out.ind.get b)) (X (out.ind.get b'))))
      (fun _ : Fin 1 => ⟨2, hks'⟩) ⟨1, by omega⟩ = b := by
    have := swapped_one (fun b' => .fin (sqDist (X (out.ind.get b)) (X (out.ind.get b')))) ⟨2, hks'⟩ le_rfl b
    rw [XR.fin_le_fin, hself] at this
    by_contra hc
    exact absurd this (not_le.2 (hpos _ hc))
  have hinj' : Function.Injective (fun c : Fin 1 =>
      (swapped (XR ℝ)).run (fun b => .fin (sqDist (T i) (X (out.ind.get b)))) (fun _ : Fin 1 => ⟨1, by omega⟩)
        (⟨c.val, by omega⟩ : Fin out.ind.length)) := fun a c _ => Subsingleton.elim _ _
  refine ⟨_, part_nearest (swapped (XR ℝ)) (fun c => sqDist (T i) (X (out.ind.get c))) 1 1 (by omega) (by omega) le_rfl
    (by omega), fun N' hN' => ⟨_, hd i b, ?_⟩⟩
  rw [centroidOf_image _ _ hinj']
  have hcent : centroidOf (fun a => X (out.ind.get a)) (fun c : Fin 1 =>
      (swapped (XR ℝ)).run (fun b' => .fin (sqDist (X (out.ind.get b)) (X (out.ind.get b'))))
        (fun _ : Fin 1 => ⟨2, hks'⟩) ⟨c.val + 1, by omega⟩) = X (out.ind.get b) := by
    funext c
    unfold centroidOf
    rw [Fin.sum_univ_one]
    simp only [Fin.val_zero, Nat.zero_add, Nat.cast_one, div_one]
    rw [hone]
  obtain ⟨m, rfl⟩ := Finset.card_eq_one.1 hN'.card
  have hm : m ≠ b := (Finset.mem_erase.1 (hN'.sub (Finset.mem_singleton_self m))).1
  have hc' : Spec.centroid {m} (fun c => X (out.ind.get c)) = X (out.ind.get m) := by
    funext c
    simp [Spec.centroid]
  rw [hc']
  have hgoal : Spec.sq (X (out.ind.get b)) (X (out.ind.get m)) > 0 := hpos m hm
  have hz : sqDist (X (out.ind.get b)) (centroidOf (fun a => X (out.ind.get a)) (fun c : Fin 1 =>
      (swapped (XR ℝ)).run (fun b' => .fin (sqDist (X (out.ind.get b)) (X (out.ind.get b'))))
        (fun _ : Fin 1 => ⟨2, hks'⟩) ⟨c.val + 1, by omega⟩)) = 0 := by rw [hcent, hself]
  change Spec.disSim _ _ _ _ < sqDist _ _ - sqDist _ _ - sqDist _ _
  rw [hz]
  unfold Spec.disSim
  change Spec.sq _ _ - Spec.sq _ _ - Spec.sq _ _ < Spec.sq _ _ - Spec.sq _ _ - 0
  linarith

/-- C132: as many neighbours as there are other vantage points, or more, are rejected (the last one would be allowed for
the formula). -/
theorem C132_too_many (w : World ℝ) (o : ArgPart (XR ℝ)) (smp : Sampling) (nSamples k : ℕ) {n t f : ℕ}
    (X : Fin n → Fin f → ℝ) (T : Fin t → Fin f → ℝ) (ind : List (Fin n))
    (hv : vantage w (fun i j => sqDist (X i) (X j)) "sqeuclidean" smp nSamples = .ok ind) (hpos : 0 < ind.length)
    (hks : ind.length ≤ k + 1) : suqhrDSL w o smp nSamples k X T = .error .valueError := by
  have h1 : Np.tabulateM (fun a : Fin ind.length =>
      trainKnn o (fun b : Fin ind.length => .fin (sqDist (X (ind.get a)) (X (ind.get b)))) k) = .error .valueError := by
    rw [← Np.tabulateM_error hpos]
    congr 1
    funext a
    unfold trainKnn
    rw [dif_neg (by omega)]
  unfold suqhrDSL
  simp only [hv, bind, Except.bind, pure, Except.pure]
  rw [h1]

end HubToolbox.Approx
