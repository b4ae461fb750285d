import Verif.HubClass.Neighbours

/-!
# C12, C64: which object is left out

The class leaves out one object of smallest distance from each list, the object itself or a copy of it.
-/

set_option autoImplicit false

namespace HubToolbox.HubClass

open Hubness Spec

/-- Positions `1 … k` of a partially sorted row are the nearest of all but a nearest one. -/
theorem knn_of_positions_nearest {K : Type} [LinearOrder K] {m k : ℕ} (d : Fin m → XR K) (σ : Equiv.Perm (Fin m)) (h : 1 + k ≤ m)
    (hs : ∀ p q : Fin m, p.val < 1 + k → p ≤ q → d (σ p) ≤ d (σ q)) :
    (∀ j, d (σ ⟨0, by omega⟩) ≤ d j) ∧
      IsKnnAmong (fun j => j ≠ σ ⟨0, by omega⟩) d k (List.ofFn (fun c : Fin k => σ ⟨1 + c.val, by omega⟩)) := by
  refine ⟨fun j => ?_, by simp, List.nodup_ofFn.2 (positions_injective σ h), ?_, ?_, ?_⟩
  · have h2 := hs ⟨0, by omega⟩ (σ.symm j) (by simp) (by rw [Fin.le_def]; simp)
    rwa [Equiv.apply_symm_apply] at h2
  · intro a ha
    obtain ⟨c, rfl⟩ := (List.mem_ofFn' _ _).1 ha
    intro hc
    have := σ.injective hc
    simp at this
  · rw [List.pairwise_ofFn]
    intro a b hab
    exact hs _ _ (by simp) (by rw [Fin.le_def]; simp; omega)
  · intro a ha b hb hb'
    obtain ⟨c, rfl⟩ := (List.mem_ofFn' _ _).1 ha
    have := hs ⟨1 + c.val, by omega⟩ (σ.symm b) (by simp) (by
      by_contra hlt
      rw [Fin.le_def] at hlt
      simp only [not_le] at hlt
      rcases Nat.eq_zero_or_pos (σ.symm b).val with hz | hz
      · apply hb
        rw [← σ.symm_apply_eq]
        exact Fin.ext hz
      · apply hb'
        refine (List.mem_ofFn' _ _).2 ⟨⟨(σ.symm b).val - 1, by omega⟩, ?_⟩
        rw [← σ.eq_symm_apply]
        ext
        simp only
        omega)
    simpa using this

/-- **C12**, for all matrices: each list contains the `k` nearest objects other than `z i`, where `z i` is some object of smallest distance,
not necessarily the object `i` itself. -/
theorem C12_left_out {K F : Type} [Field K] [LinearOrder K] [Field F] [LinearOrder F]
    (w : World K) (P : Params F) (k : ℕ) (hP : P.k = some (k : ℤ)) (bs : ℕ) (shuffle : Bool) (n : ℕ) (D : Fin n → Fin n → XR K) (hk : k + 1 ≤ n) :
    ∃ (fit : Fit F) (rows : Fin n → Fin k → Fin n) (z : Fin n → Fin n),
      fitTransform w P bs shuffle true (.dense n n D false) = .ok fit ∧
      fit.lists = (List.finRange n).flatMap (asLists rows) ∧
      (∀ i j, farness (D i (z i)) ≤ farness (D i j)) ∧
      ∀ i, IsKnnAmong (fun j => j ≠ z i) (fun j => farness (D i j)) k (List.ofFn (rows i)) := by
  obtain ⟨σ, h1, h2⟩ := rows_of_positions (n := n) (start := 1) (k := k) w.argpart shuffle
    (fun i => w.rnd i n) (fun i => Np.replaceNonFinite (D i) .pinf) (by omega)
  have key := fun i => knn_of_positions_nearest (fun j => farness (D i j)) (σ i) (by omega) (h2 i)
  refine ⟨stats P.hubSize k n n ((List.finRange n).flatMap (asLists (fun (i : Fin n) (c : Fin k) => σ i ⟨1 + c.val, by omega⟩))),
    fun i c => σ i ⟨1 + c.val, by omega⟩, fun i => σ i ⟨0, by omega⟩, ?_, rfl, fun i => (key i).1, fun i => (key i).2⟩
  unfold fitTransform
  rw [hP]
  simp only [fitLists, Int.toNat_natCast, precomputed, Bool.false_eq_true, if_false, true_and, and_self, if_true]
  rw [loop_ok _ (fun (row : Fin k → Fin n) c => (row c).val) _ h1, ← ravel_eq]
  rfl

/-- **C64**, with duplicates: the list of each vector contains the `k` nearest vectors other than `z i`, where `z i` is the vector itself or
a copy of it. So the distances of the listed vectors are always those of the `k` nearest other vectors. -/
theorem C64_left_out {K F : Type} [Field K] [LinearOrder K] [IsStrictOrderedRing K] [Field F] [LinearOrder F]
    (w : World K) (P : Params F) (k : ℕ) (hP : P.k = some (k : ℤ)) (hmet : P.metric = "euclidean")
    (bs : ℕ) (hbs : 1 ≤ bs) (shuffle hasSelf : Bool) (n p : ℕ) (X : Fin n → Fin p → K) (hk : k + 1 ≤ n) :
    ∃ (fit : Fit F) (rows : Fin n → Fin k → Fin n) (z : Fin n → Fin n),
      fitTransform w P bs shuffle hasSelf (.vectors n p X none) = .ok fit ∧
      fit = stats P.hubSize k n n ((List.finRange n).flatMap (asLists rows)) ∧
      (∀ i, X (z i) = X i) ∧
      ∀ i, IsKnnAmong (fun j => j ≠ z i) (fun j => ∑ f, (X i f - X j f) ^ 2) k (List.ofFn (rows i)) := by
  have hmc : P.metric ≠ "cosine" := by rw [hmet]; decide
  obtain ⟨σ, h1, h2⟩ := rows_of_positions (n := n) (start := 1) (k := k) w.argpart false (fun _ => 1)
      (sqDist X X) (by omega)
  have key := fun i => knn_of_positions_nearest (sqDist X X i) (σ i) (by omega) (h2 i)
  refine ⟨stats P.hubSize k n n ((List.finRange n).flatMap (asLists (fun (i : Fin n) (c : Fin k) => σ i ⟨1 + c.val, by omega⟩))),
    fun i c => σ i ⟨1 + c.val, by omega⟩, fun i => σ i ⟨0, by omega⟩, ?_, rfl, fun i => ?_, fun i => ?_⟩
  · unfold fitTransform
    rw [hP]
    simp only [fitLists, Int.toNat_natCast]
    rw [kNeighbors_eq _ _ hmc _ _ _ _ hbs _ (w.sched_perm n k),
      loop_ok _ (fun (row : Fin k → Fin n) c => (row c).val) _ h1, ← ravel_eq]
    rfl
  · by_contra hne
    have h3 := (key i).1 i
    have h4 := sqDist_pos X i (σ i ⟨0, by omega⟩) (fun h => hne h.symm)
    exact absurd h3 (not_le.2 h4)
  · have := (key i).2
    exact ⟨this.length, this.distinct, this.cands, this.sorted.imp (fun h => by simpa [sqDist] using h),
      fun a ha b hb hb' => by simpa [sqDist] using this.best a ha b hb hb'⟩

end HubToolbox.HubClass
