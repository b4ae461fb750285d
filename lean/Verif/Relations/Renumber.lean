import Verif.LS.Props
import Verif.SNN.Props
import Verif.SNN.SimhubProps

/-!
# Renumbering the objects: Local Scaling, NICDM, shared nearest neighbours and simhub (C165, C166)
-/

set_option autoImplicit false

namespace HubToolbox.Relations

open HubToolbox

/-! ### Specifications under renumbering -/

section
variable {ι : Type} [DecidableEq ι]

omit [DecidableEq ι] in
theorem card_filter_perm (σ : Equiv.Perm ι) (S S' : Finset ι) (hS : ∀ a, a ∈ S' ↔ σ a ∈ S) (p : ι → Prop)
    [DecidablePred p] : (S'.filter (fun a => p (σ a))).card = (S.filter p).card := by
  rw [← Finset.card_map σ.toEmbedding]
  congr 1
  ext b
  simp only [Finset.mem_map_equiv, Finset.mem_filter, hS, Equiv.apply_symm_apply]

omit [DecidableEq ι] in
theorem isKthSmallest_perm (σ : Equiv.Perm ι) {S S' : Finset ι} (hS : ∀ a, a ∈ S' ↔ σ a ∈ S) {f : ι → ℝ} {k : ℕ} {ρ : ℝ}
    (h : Spec.IsKthSmallest S f k ρ) : Spec.IsKthSmallest S' (fun a => f (σ a)) k ρ := by
  obtain ⟨j, hj, hf⟩ := h.attained
  refine ⟨⟨σ.symm j, by rw [hS, Equiv.apply_symm_apply]; exact hj, by simpa using hf⟩, ?_, ?_⟩
  · rw [card_filter_perm σ S S' hS (fun a => f a < ρ)]; exact h.below
  · rw [card_filter_perm σ S S' hS (fun a => f a ≤ ρ)]; exact h.upto

/-- The members of `N` under their new numbers. -/
def renumbered (σ : Equiv.Perm ι) (N : Finset ι) : Finset ι := N.map σ.symm.toEmbedding

omit [DecidableEq ι] in
theorem mem_renumbered (σ : Equiv.Perm ι) (N : Finset ι) (a : ι) : a ∈ renumbered σ N ↔ σ a ∈ N := by
  simp [renumbered, Finset.mem_map_equiv]

theorem isNearest_perm (σ : Equiv.Perm ι) {S S' : Finset ι} (hS : ∀ a, a ∈ S' ↔ σ a ∈ S) {f : ι → ℝ} {k : ℕ} {N : Finset ι}
    (h : Spec.IsNearest S f k N) : Spec.IsNearest S' (fun a => f (σ a)) k (renumbered σ N) := by
  refine ⟨fun a ha => ?_, ?_, fun a ha b hb hbN => ?_⟩
  · rw [mem_renumbered] at ha
    exact (hS a).2 (h.sub ha)
  · rw [renumbered, Finset.card_map, h.card]
  · rw [mem_renumbered] at ha hbN
    exact h.best _ ha _ ((hS b).1 hb) hbN

theorem isHood_perm {α : Type} (nearer : α → α → Prop) (σ : Equiv.Perm ι) {S S' : Finset ι} (hS : ∀ a, a ∈ S' ↔ σ a ∈ S)
    {f : ι → α} {k : ℕ} {N : Finset ι} (h : Spec.IsHood nearer S f k N) :
    Spec.IsHood nearer S' (fun a => f (σ a)) k (renumbered σ N) := by
  refine ⟨fun a ha => ?_, ?_, fun a ha b hb hbN => ?_⟩
  · rw [mem_renumbered] at ha
    exact (hS a).2 (h.sub ha)
  · rw [renumbered, Finset.card_map, h.card]
  · rw [mem_renumbered] at ha hbN
    exact h.best _ ha _ ((hS b).1 hb) hbN

omit [DecidableEq ι] in
theorem meanOver_renumbered (σ : Equiv.Perm ι) (N : Finset ι) (f : ι → ℝ) :
    Spec.meanOver (renumbered σ N) (fun a => f (σ a)) = Spec.meanOver N f := by
  unfold Spec.meanOver renumbered
  rw [Finset.sum_map, Finset.card_map]
  simp

theorem inter_renumbered (σ : Equiv.Perm ι) (N N' : Finset ι) :
    renumbered σ N ∩ renumbered σ N' = renumbered σ (N ∩ N') := by
  ext a
  simp only [Finset.mem_inter, mem_renumbered]

theorem erase_perm (σ : Equiv.Perm ι) {S S' : Finset ι} (hS : ∀ a, a ∈ S' ↔ σ a ∈ S) (i a : ι) :
    a ∈ S'.erase i ↔ σ a ∈ S.erase (σ i) := by
  simp [hS]
end

/-! ### C165 -/

theorem radius_pos {n : ℕ} {x : Fin n → ℝ} {S : Finset (Fin n)} {k : ℕ} {ρ : ℝ} (h : Spec.IsKthSmallest S x k ρ)
    (hz : (S.filter (fun j => x j ≤ 0)).card < k) : 0 < ρ := by
  by_contra hρ
  refine absurd h.upto (not_le.2 (lt_of_le_of_lt (Finset.card_le_card ?_) hz))
  intro j hj
  rw [Finset.mem_filter] at hj ⊢
  exact ⟨hj.1, hj.2.trans (not_lt.1 hρ)⟩

/-- **C165** (Local Scaling): renumbering the objects renumbers the result, whatever the number of processes and the schedules. The
held-out objects `test'` are those of `test` under their new numbers. Each object has at least `k` other training objects, less than
`k` of them at distance zero. -/
theorem C165_local_scaling (w w' : LS.World) {n : ℕ} (hn : 0 < n) (x : Fin n → Fin n → ℝ) (hsym : ∀ i j, x i j = x j i) (k : ℕ)
    (hk : 1 ≤ k) (test test' : Option (List ℤ)) (σ : Equiv.Perm (Fin n))
    (hT : ∀ i, i ∈ Spec.training n test' ↔ σ i ∈ Spec.training n test)
    (hc : ∀ i, k ≤ ((Spec.training n test).erase i).card)
    (hz : ∀ i, (((Spec.training n test).erase i).filter (fun j => x i j ≤ 0)).card < k)
    (nJobs nJobs' : ℤ) (hj : nJobs = -1 ∨ 1 ≤ nJobs) (hj' : nJobs' = -1 ∨ 1 ≤ nJobs') :
    ∃ M : Fin n → Fin n → XR ℝ,
      LS.localScaling w (.mat false n n (LS.toXR x)) k "distance" test nJobs = .ok ⟨n, M⟩ ∧
      LS.localScaling w' (.mat false n n (LS.toXR (fun i j => x (σ i) (σ j)))) k "distance" test' nJobs' =
        .ok ⟨n, fun i j => M (σ i) (σ j)⟩ := by
  obtain ⟨r, hr⟩ := LS.C28_radii_exist x k hk test hc
  have hpos : ∀ i, 0 < r i := fun i => radius_pos (hr i) (hz i)
  refine ⟨_, LS.C28_formula w x hsym k hk test nJobs hj r hr hpos hn, ?_⟩
  rw [LS.C28_formula w' (fun i j => x (σ i) (σ j)) (fun i j => hsym _ _) k hk test' nJobs' hj' (fun i => r (σ i))
    (fun i => isKthSmallest_perm σ (erase_perm σ hT i) (hr (σ i))) (fun i => hpos _) hn]
  simp only [σ.injective.eq_iff]

/-- **C165** (NICDM). -/
theorem C165_nicdm (w w' : LS.World) {n : ℕ} (hn : 0 < n) (x : Fin n → Fin n → ℝ) (hsym : ∀ i j, x i j = x j i)
    (hnn : ∀ i j, 0 ≤ x i j) (k : ℕ) (hk : 1 ≤ k) (test test' : Option (List ℤ)) (σ : Equiv.Perm (Fin n))
    (hT : ∀ i, i ∈ Spec.training n test' ↔ σ i ∈ Spec.training n test)
    (hc : ∀ i, k ≤ ((Spec.training n test).erase i).card)
    (hz : ∀ i, (((Spec.training n test).erase i).filter (fun j => x i j ≤ 0)).card < k)
    (nJobs nJobs' : ℤ) :
    ∃ M : Fin n → Fin n → XR ℝ,
      LS.nicdm w (.mat false n n (LS.toXR x)) k "distance" test nJobs = .ok ⟨n, M⟩ ∧
      LS.nicdm w' (.mat false n n (LS.toXR (fun i j => x (σ i) (σ j)))) k "distance" test' nJobs' =
        .ok ⟨n, fun i j => M (σ i) (σ j)⟩ := by
  choose N hN using fun i => LS.C32_nearest_exist (x i) ((Spec.training n test).erase i) k (hc i)
  have hpos : ∀ i, 0 < Spec.meanOver (N i) (x i) := by
    intro i
    have hcard : 0 < ((N i).card : ℝ) := by rw [(hN i).card]; exact_mod_cast hk
    refine div_pos ?_ hcard
    rcases (Finset.sum_nonneg (fun j (_ : j ∈ N i) => hnn i j)).lt_or_eq with h | h
    · exact h
    · exfalso
      have h0 := (Finset.sum_eq_zero_iff_of_nonneg (fun j _ => hnn i j)).1 h.symm
      refine absurd (hz i) (not_lt.2 ?_)
      rw [← (hN i).card]
      refine Finset.card_le_card fun j hj => ?_
      rw [Finset.mem_filter]
      exact ⟨(hN i).sub hj, (h0 j hj).le⟩
  refine ⟨_, LS.C32_formula w x hsym k hk test nJobs N hN hpos hn, ?_⟩
  have hm : ∀ i, Spec.meanOver (renumbered σ (N (σ i))) (fun j => x (σ i) (σ j)) = Spec.meanOver (N (σ i)) (x (σ i)) :=
    fun i => meanOver_renumbered σ _ (x (σ i))
  rw [LS.C32_formula w' (fun i j => x (σ i) (σ j)) (fun i j => hsym _ _) k hk test' nJobs' (fun i => renumbered σ (N (σ i)))
    (fun i => isNearest_perm σ (erase_perm σ hT i) (hN (σ i))) (fun i => by rw [hm]; exact hpos _) hn]
  have hg : Spec.geometricMean (fun i => Spec.meanOver (N (σ i)) (x (σ i))) =
      Spec.geometricMean (fun i => Spec.meanOver (N i) (x i)) := by
    unfold Spec.geometricMean
    congr 1
    exact Equiv.prod_comp σ (fun i => Spec.meanOver (N i) (x i))
  simp only [hm, hg, σ.injective.eq_iff]

/-! ### C166 -/

/-- **C166** (shared nearest neighbours): renumbering the objects of a tie-free matrix renumbers the result. -/
theorem C166_snn {K : Type} [Field K] [LinearOrder K] [IsStrictOrderedRing K] (w w' : SNN.World K) {n : ℕ}
    (x : Fin n → Fin n → K) (hties : ∀ i a b, a ≠ i → b ≠ i → x i a = x i b → a = b) (k : ℕ) (h1 : 1 ≤ k) (hk : k < n)
    (metric : String) (hm : metric = "distance" ∨ metric = "similarity") (σ : Equiv.Perm (Fin n)) (nJobs nJobs' : ℤ) :
    ∃ M : Fin n → Fin n → XR K,
      SNN.sharedNearestNeighbors w (.mat false n n (fun i j => .fin (x i j))) k metric nJobs = .ok ⟨n, M⟩ ∧
      SNN.sharedNearestNeighbors w' (.mat false n n (fun i j => .fin (x (σ i) (σ j)))) k metric nJobs' =
        .ok ⟨n, fun i j => M (σ i) (σ j)⟩ := by
  obtain ⟨N, hN, h⟩ := SNN.C34_formula w (fun i j => .fin (x i j)) x (fun _ _ _ => rfl) k h1 hk metric hm nJobs
  refine ⟨_, h, ?_⟩
  rw [SNN.C34_determined w' _ (fun i j => x (σ i) (σ j)) (fun _ _ _ => rfl)
    (fun i a b ha hb hab => σ.injective (hties (σ i) _ _ (σ.injective.ne ha) (σ.injective.ne hb) hab)) k h1 hk metric hm nJobs'
    (fun i => renumbered σ (N (σ i)))
    (fun i => isHood_perm _ σ (erase_perm σ (fun a => by simp) i) (hN (σ i)))]
  simp only [σ.injective.eq_iff, Spec.snn, Spec.commonFraction, inter_renumbered]
  simp only [renumbered, Finset.card_map]

/-- **C166** (simhubIN): likewise. -/
theorem C166_simhubIN (w w' : SNN.World ℝ) {n : ℕ}
    (x : Fin n → Fin n → ℝ) (hties : ∀ i a b, a ≠ i → b ≠ i → x i a = x i b → a = b) (s : ℕ) (h1 : 1 ≤ s) (hs : s < n)
    (σ : Equiv.Perm (Fin n)) (rd : Bool) (nJobs nJobs' : ℤ) :
    ∃ M : Fin n → Fin n → XR ℝ,
      SNN.simhubIN w (.mat false n n (fun i j => .fin (x i j))) none none s rd nJobs = .ok ⟨n, n, M⟩ ∧
      SNN.simhubIN w' (.mat false n n (fun i j => .fin (x (σ i) (σ j)))) none none s rd nJobs' =
        .ok ⟨n, n, fun i j => M (σ i) (σ j)⟩ := by
  obtain ⟨N, hN, h⟩ := SNN.C35_formula w (fun i j => .fin (x i j)) x (fun _ _ _ => rfl) s h1 hs rd nJobs
  obtain ⟨N', hN', h'⟩ := SNN.C35_formula w' (fun i j => .fin (x (σ i) (σ j))) (fun i j => x (σ i) (σ j)) (fun _ _ _ => rfl) s
    h1 hs rd nJobs'
  refine ⟨_, h, ?_⟩
  have hNN : N' = fun i => renumbered σ (N (σ i)) := by
    funext i
    refine SNN.IsHood.unique (hN' i) (isHood_perm _ σ (erase_perm σ (fun a => by simp) i) (hN (σ i))) ?_
    intro a ha b hb hab
    simp only [Finset.coe_erase, Finset.coe_univ, Set.mem_sdiff, Set.mem_univ, Set.mem_singleton_iff, true_and] at ha hb
    exact σ.injective (hties (σ i) _ _ (σ.injective.ne ha) (σ.injective.ne hb) hab)
  rw [h', hNN]
  have hocc : ∀ a, Spec.occurrence Finset.univ (fun i => renumbered σ (N (σ i))) a = Spec.occurrence Finset.univ N (σ a) := by
    intro a
    unfold Spec.occurrence
    simp only [mem_renumbered]
    rw [card_filter_perm σ Finset.univ Finset.univ (fun a => by simp) (fun i => σ a ∈ N i)]
  simp only [σ.injective.eq_iff, Spec.simhub, inter_renumbered, hocc]
  simp only [renumbered, Finset.sum_map, Equiv.coe_toEmbedding, Equiv.apply_symm_apply]

/-! ### The hypotheses can be met -/

/-- Four points on a line at `0, 1, 3, 7`. -/
def four : Fin 4 → Fin 4 → ℝ := ![![0, 1, 3, 7], ![1, 0, 2, 6], ![3, 2, 0, 4], ![7, 6, 4, 0]]

example : (∀ i j, four i j = four j i) ∧ (∀ i j, 0 ≤ four i j) ∧
    (∀ i a b, a ≠ i → b ≠ i → four i a = four i b → a = b) ∧ (∀ i j, i ≠ j → 0 < four i j) := by
  refine ⟨?_, ?_, ?_, ?_⟩
  · intro i j; fin_cases i <;> fin_cases j <;> simp [four]
  · intro i j; fin_cases i <;> fin_cases j <;> simp [four]
  · intro i a b; fin_cases i <;> fin_cases a <;> fin_cases b <;> simp [four]
  · intro i j; fin_cases i <;> fin_cases j <;> simp [four]

-- the second and third point exchanged, the last one held out
example (w w' : LS.World) : ∃ M : Fin 4 → Fin 4 → XR ℝ,
      LS.localScaling w (.mat false 4 4 (LS.toXR four)) 2 "distance" (some [3]) 1 = .ok ⟨4, M⟩ ∧
      LS.localScaling w' (.mat false 4 4 (LS.toXR (fun i j => four (Equiv.swap 1 2 i) (Equiv.swap 1 2 j)))) 2 "distance"
        (some [3]) 4 = .ok ⟨4, fun i j => M (Equiv.swap 1 2 i) (Equiv.swap 1 2 j)⟩ := by
  have ht : ∀ i : Fin 4, i ∈ Spec.training 4 (some [3]) ↔ i ≠ 3 := by
    intro i; simp only [Spec.training, Finset.mem_filter]; fin_cases i <;> simp
  refine C165_local_scaling w w' (by decide) four ?_ 2 (by decide) (some [3]) (some [3]) (Equiv.swap 1 2) ?_ ?_ ?_ 1 4
    (by decide) (by decide)
  · intro i j; fin_cases i <;> fin_cases j <;> simp [four]
  · intro i; rw [ht, ht]; fin_cases i <;> decide
  · have : Spec.training 4 (some [3]) = {0, 1, 2} := by
      ext i; rw [ht]; fin_cases i <;> decide
    rw [this]; decide
  · intro i
    have : ((Spec.training 4 (some [3])).erase i).filter (fun j => four i j ≤ 0) = ∅ := by
      rw [Finset.filter_eq_empty_iff]
      intro j hj
      have hj := (Finset.mem_erase.1 hj).1
      revert hj
      fin_cases i <;> fin_cases j <;> simp [four]
    rw [this]; decide

end HubToolbox.Relations
