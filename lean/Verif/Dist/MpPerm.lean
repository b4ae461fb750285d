import Verif.Dist.MpOrder

/-!
# `mp_dissim`: numbering of objects and features
-/

set_option autoImplicit false

namespace HubToolbox.Dist

theorem sorted_perm {n : ℕ} (v : Fin n → ℝ) (τ : Equiv.Perm (Fin n)) : sorted (fun j => v (τ j)) = sorted v := by
  unfold sorted Np.sort
  have hp : (List.ofFn (fun j => v (τ j))).Perm (List.ofFn v) := Equiv.Perm.ofFn_comp_perm τ v
  refine List.Perm.eq_of_pairwise (le := (· ≤ ·)) (fun a b _ _ h1 h2 => le_antisymm h1 h2)
    (List.pairwise_insertionSort (· ≤ ·) _) (List.pairwise_insertionSort (· ≤ ·) _) ?_
  exact ((List.perm_insertionSort _ _).trans hp).trans (List.perm_insertionSort _ _).symm

theorem rangeEdges_perm {n : ℕ} (v : Fin n → ℝ) (τ : Equiv.Perm (Fin n)) (B : ℕ) :
    rangeEdges (fun j => v (τ j)) B = rangeEdges v B := by
  unfold rangeEdges
  rw [sorted_perm]

theorem massEdges_perm {n : ℕ} (v : Fin n → ℝ) (τ : Equiv.Perm (Fin n)) (kth : List ℕ) :
    massEdges (fun j => v (τ j)) kth = massEdges v kth := by
  unfold massEdges
  rw [sorted_perm]

theorem histogram_perm {n : ℕ} (v : Fin n → ℝ) (τ : Equiv.Perm (Fin n)) (E : Edges) :
    histogram (fun j => v (τ j)) E = histogram v E := by
  classical
  funext b
  unfold histogram
  refine Finset.card_bij (fun x _ => τ x) ?_ (fun _ _ _ _ h => τ.injective h) ?_
  · intro x hx
    simpa using hx
  · intro y hy
    exact ⟨τ.symm y, by simpa using hy, by simp⟩

theorem mpEntry_perm {nx ny d : ℕ} (X : Fin nx → Fin d → ℝ) (Y : Fin ny → Fin d → ℝ) (p : ℝ) (B : ℕ) (E : Fin d → Edges)
    (σ : Equiv.Perm (Fin nx)) (τ : Equiv.Perm (Fin ny)) (ρ : Equiv.Perm (Fin d)) (x : Fin nx) (y : Fin ny) :
    mpEntry (fun a i => X (σ a) (ρ i)) (fun b i => Y (τ b) (ρ i)) p B (fun i => E (ρ i)) x y =
      mpEntry X Y p B E (σ x) (τ y) := by
  unfold mpEntry
  congr 2
  rw [← Equiv.sum_comp ρ (fun i => ((rBins (histogram (fun j => Y j i) (E i)) (binOf (E i) B (X (σ x) i))
    (binOf (E i) B (Y (τ y) i)) : ℕ) / ((nx : ℝ) + ny)) ^ p)]
  refine Finset.sum_congr rfl (fun i _ => ?_)
  rw [histogram_perm (fun j => Y j (ρ i)) τ]

/-- C252: renumbering the objects of either data set renumbers rows and columns, and the order of the features does not
matter. -/
theorem C252 {nx ny d : ℕ} (cpu : ℤ) (X : Fin nx → Fin d → ℝ) (Y : Fin ny → Fin d → ℝ) (p : ℝ) (nBins : ℤ)
    (binSize : String) (nJobs : ℤ) (σ : Equiv.Perm (Fin nx)) (τ : Equiv.Perm (Fin ny)) (ρ : Equiv.Perm (Fin d)) :
    mpDissim cpu (fun a i => X (σ a) (ρ i)) (fun b i => Y (τ b) (ρ i)) p nBins binSize nJobs =
      (mpDissim cpu X Y p nBins binSize nJobs).map (fun D x y => D (σ x) (τ y)) := by
  have hm : ∀ p B kth, mpEntry (fun a i => X (σ a) (ρ i)) (fun b i => Y (τ b) (ρ i)) p B
      (fun i => massEdges (fun j => Y (τ j) (ρ i)) kth) =
      fun x y => mpEntry X Y p B (fun i => massEdges (fun j => Y j i) kth) (σ x) (τ y) := by
    intro p B kth
    funext x y
    rw [← mpEntry_perm X Y p B _ σ τ ρ x y]
    congr 1
    funext i
    exact massEdges_perm (fun j => Y j (ρ i)) τ kth
  have hr : ∀ p B B', mpEntry (fun a i => X (σ a) (ρ i)) (fun b i => Y (τ b) (ρ i)) p B
      (fun i => rangeEdges (fun j => Y (τ j) (ρ i)) B') =
      fun x y => mpEntry X Y p B (fun i => rangeEdges (fun j => Y j i) B') (σ x) (τ y) := by
    intro p B B'
    funext x y
    rw [← mpEntry_perm X Y p B _ σ τ ρ x y]
    congr 1
    funext i
    exact rangeEdges_perm (fun j => Y j (ρ i)) τ B'
  unfold mpDissim
  simp only [hm, hr]
  generalize (if p = 0 then (2 : ℝ) else p) = p'
  generalize (if nJobs = -1 then cpu else nJobs) = j'
  by_cases h1 : nBins < 0
  · rw [if_pos h1, if_pos h1]; rfl
  rw [if_neg h1, if_neg h1]
  by_cases h2 : nBins = 0
  · rw [if_pos h2, if_pos h2]; rfl
  rw [if_neg h2, if_neg h2]
  by_cases h3 : ny / nBins.toNat = 0
  · rw [if_pos h3, if_pos h3]; rfl
  rw [if_neg h3, if_neg h3]
  by_cases h4 : j' < 1
  · rw [if_pos h4, if_pos h4]; rfl
  rw [if_neg h4, if_neg h4]
  by_cases h5 : isPrefix binSize "mass" = true
  · rw [if_pos h5, if_pos h5]
    by_cases h6 : (kthList ny (ny / nBins.toNat)).length - 1 = nBins.toNat
    · rw [if_pos h6, if_pos h6]; rfl
    · rw [if_neg h6, if_neg h6]; rfl
  rw [if_neg h5, if_neg h5]
  by_cases h6 : isPrefix binSize "range" = true
  · rw [if_pos h6, if_pos h6]; rfl
  · rw [if_neg h6, if_neg h6]; rfl

/-- The same without `Y`: one renumbering of rows and columns. -/
theorem C252_self {n d : ℕ} (cpu : ℤ) (X : Fin n → Fin d → ℝ) (p : ℝ) (nBins : ℤ) (binSize : String) (nJobs : ℤ)
    (σ : Equiv.Perm (Fin n)) :
    mpDissim cpu (fun a => X (σ a)) (fun a => X (σ a)) p nBins binSize nJobs =
      (mpDissim cpu X X p nBins binSize nJobs).map (fun D x y => D (σ x) (σ y)) :=
  C252 cpu X X p nBins binSize nJobs σ σ (Equiv.refl _)

/-- The call succeeds, for four objects and two bins. -/
example (X : Fin 4 → Fin 2 → ℝ) : ∃ D, mpDissim 4 X X 2 2 "range" 1 = .ok D :=
  C148_range_ok (by norm_num) X X 2 (by norm_num) (by norm_num) (Or.inl le_rfl)

end HubToolbox.Dist
