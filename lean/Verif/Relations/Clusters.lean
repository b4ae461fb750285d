import Verif.Relations.Nested
import Verif.Relations.LocalOrder

/-!
# C228: objects which are far away do not matter

`e` lists some of the objects. If every object which is not in the list is farther from `e i` than `k` objects of the list, then the
methods based on the `k` nearest neighbours give the same secondary distances for the objects of the list whether the others are part
of the data or not.
-/

set_option autoImplicit false

namespace HubToolbox.Spec

/-- Every object outside of the list `e` is farther from `e i` than at least `k` other objects of the list. -/
def FarOutside {α : Type} [LT α] [DecidableLT α] {n N : ℕ} (x : Fin N → Fin N → α) (e : Fin n ↪ Fin N) (k : ℕ) (i : Fin n) : Prop :=
  ∀ z, (∀ c, e c ≠ z) → k ≤ ((Finset.univ.erase i).filter fun c => x (e i) (e c) < x (e i) z).card

/-- The distances of the objects in the list. -/
def among {α : Type} {n N : ℕ} (x : Fin N → Fin N → α) (e : Fin n ↪ Fin N) : Fin n → Fin n → α := fun i j => x (e i) (e j)

end HubToolbox.Spec

namespace HubToolbox.LS

theorem kth_among {n N k : ℕ} {x : Fin N → Fin N → ℝ} {e : Fin n ↪ Fin N} {i : Fin n} {ρ : ℝ} (hf : Spec.FarOutside x e k i)
    (h : Spec.IsKthSmallest (Finset.univ.erase i) (Spec.among x e i) k ρ) : Spec.IsKthSmallest (Finset.univ.erase (e i)) (x (e i)) k ρ := by
  have hout : ∀ z, (∀ c, e c ≠ z) → ρ < x (e i) z := by
    intro z hz
    by_contra hle
    rw [not_lt] at hle
    have h1 := hf z hz
    have h2 := h.below
    have : ((Finset.univ.erase i).filter fun c => x (e i) (e c) < x (e i) z).card ≤
        ((Finset.univ.erase i).filter fun c => Spec.among x e i c < ρ).card := by
      refine Finset.card_le_card fun c hc => ?_
      rw [Finset.mem_filter] at hc ⊢
      exact ⟨hc.1, hc.2.trans_le hle⟩
    omega
  refine ⟨?_, ?_, ?_⟩
  · obtain ⟨c, hc, ec⟩ := h.attained
    exact ⟨e c, Finset.mem_erase.2 ⟨fun h' => (Finset.mem_erase.1 hc).1 (e.injective h'), Finset.mem_univ _⟩, ec⟩
  · refine lt_of_le_of_lt ?_ h.below
    rw [← Finset.card_map e]
    refine Finset.card_le_card fun z hz => ?_
    rw [Finset.mem_filter, Finset.mem_erase] at hz
    by_cases hc : ∃ c, e c = z
    · obtain ⟨c, rfl⟩ := hc
      refine Finset.mem_map.2 ⟨c, Finset.mem_filter.2 ⟨Finset.mem_erase.2 ⟨fun h' => hz.1.1 (by rw [h']), Finset.mem_univ _⟩, hz.2⟩, rfl⟩
    · exact absurd hz.2 (hout z fun c h' => hc ⟨c, h'⟩).not_gt
  · refine h.upto.trans ?_
    rw [← Finset.card_map e]
    refine Finset.card_le_card fun z hz => ?_
    obtain ⟨c, hc, rfl⟩ := Finset.mem_map.1 hz
    rw [Finset.mem_filter, Finset.mem_erase] at hc ⊢
    exact ⟨⟨fun h' => hc.1.1 (e.injective h'), Finset.mem_univ _⟩, hc.2⟩

theorem nearest_among {n N k : ℕ} {x : Fin N → Fin N → ℝ} {e : Fin n ↪ Fin N} {i : Fin n} {B : Finset (Fin n)} (hf : Spec.FarOutside x e k i)
    (h : Spec.IsNearest (Finset.univ.erase i) (Spec.among x e i) k B) : Spec.IsNearest (Finset.univ.erase (e i)) (x (e i)) k (B.map e) := by
  refine ⟨fun z hz => ?_, by rw [Finset.card_map, h.card], fun a ha b hb hbn => ?_⟩
  · obtain ⟨c, hc, rfl⟩ := Finset.mem_map.1 hz
    exact Finset.mem_erase.2 ⟨fun h' => (Finset.mem_erase.1 (h.sub hc)).1 (e.injective h'), Finset.mem_univ _⟩
  · obtain ⟨a, ha', rfl⟩ := Finset.mem_map.1 ha
    by_cases hc : ∃ c, e c = b
    · obtain ⟨c, rfl⟩ := hc
      exact h.best a ha' c (Finset.mem_erase.2 ⟨fun h' => (Finset.mem_erase.1 hb).1 (by rw [h']), Finset.mem_univ _⟩)
        (fun h' => hbn (Finset.mem_map_of_mem _ h'))
    · -- otherwise the `k` objects nearer than `b` are all in `B`, and so is `a`
      by_contra hlt
      rw [not_le] at hlt
      have hs : ((Finset.univ.erase i).filter fun c => x (e i) (e c) < x (e i) b) ⊆ B.erase a := by
        intro c hc
        rw [Finset.mem_filter] at hc
        have hca : c ≠ a := fun h' => (hc.2.trans hlt).ne (by rw [h'])
        refine Finset.mem_erase.2 ⟨hca, ?_⟩
        by_contra hcB
        exact ((h.best a ha' c hc.1 hcB).trans_lt hc.2).not_gt hlt
      have h1 := hf b fun c h' => hc ⟨c, h'⟩
      have h2 := Finset.card_le_card hs
      rw [Finset.card_erase_of_mem ha', h.card] at h2
      have : 0 < k := by rw [← h.card]; exact Finset.card_pos.2 ⟨a, ha'⟩
      omega

/-- **C228** (Local Scaling). -/
theorem C228_local_scaling (w w' : World) {n N : ℕ} (x : Fin N → Fin N → ℝ) (e : Fin n ↪ Fin N) (hsym : ∀ i j, x i j = x j i)
    (hx : ∀ i j, i ≠ j → 0 < x i j) (k : ℕ) (h1 : 1 ≤ k) (hk : k < n) (nJobs nJobs' : ℤ) (hj : nJobs = -1 ∨ 1 ≤ nJobs)
    (hj' : nJobs' = -1 ∨ 1 ≤ nJobs') :
    ∃ (M : Fin N → Fin N → ℝ) (M' : Fin n → Fin n → ℝ),
      localScaling w (.mat false N N (toXR x)) k "distance" none nJobs = .ok ⟨N, toXR M⟩ ∧
      localScaling w' (.mat false n n (toXR (Spec.among x e))) k "distance" none nJobs' = .ok ⟨n, toXR M'⟩ ∧
      ∀ i j, Spec.FarOutside x e k i → Spec.FarOutside x e k j → M (e i) (e j) = M' i j := by
  have hnN : n ≤ N := by simpa using Fintype.card_le_of_embedding e
  have card : ∀ {m : ℕ}, k < m → ∀ i : Fin m, k ≤ ((Spec.training m none).erase i).card := fun {m} hm i => by
    rw [training_none, Finset.card_erase_of_mem (Finset.mem_univ i), Finset.card_univ, Fintype.card_fin]; omega
  obtain ⟨r, hr⟩ := C28_radii_exist x k h1 none (card (hk.trans_le hnN))
  obtain ⟨r', hr'⟩ := C28_radii_exist (Spec.among x e) k h1 none (card hk)
  refine ⟨_, _, C28_formula w x hsym k h1 none nJobs hj r hr (radii_pos hx hr) (by omega),
    C28_formula w' (Spec.among x e) (fun i j => hsym _ _) k h1 none nJobs' hj' r' hr'
      (radii_pos (fun i j h => hx _ _ fun h' => h (e.injective h')) hr') (by omega), ?_⟩
  have same : ∀ i, Spec.FarOutside x e k i → r (e i) = r' i := fun i hf => by
    have h2 := hr (e i)
    have h3 := hr' i
    rw [training_none] at h2 h3
    exact kthSmallest_unique h2 (kth_among hf h3)
  intro i j hi hj
  simp only [e.injective.eq_iff, same i hi, same j hj]
  rfl

/-- **C228** (NICDM): up to one factor common to all pairs. -/
theorem C228_nicdm (w w' : World) {n N : ℕ} (x : Fin N → Fin N → ℝ) (e : Fin n ↪ Fin N) (hsym : ∀ i j, x i j = x j i)
    (k : ℕ) (h1 : 1 ≤ k) (nJobs nJobs' : ℤ) (A : Fin N → Finset (Fin N)) (B : Fin n → Finset (Fin n))
    (hA : ∀ i, Spec.IsNearest ((Spec.training N none).erase i) (x i) k (A i)) (hpos : ∀ i, 0 < Spec.meanOver (A i) (x i))
    (hB : ∀ i, Spec.IsNearest ((Spec.training n none).erase i) (Spec.among x e i) k (B i))
    (hpos' : ∀ i, 0 < Spec.meanOver (B i) (Spec.among x e i)) (hn : 0 < n) :
    ∃ (M : Fin N → Fin N → ℝ) (M' : Fin n → Fin n → ℝ) (c : ℝ), 0 < c ∧
      nicdm w (.mat false N N (toXR x)) k "distance" none nJobs = .ok ⟨N, toXR M⟩ ∧
      nicdm w' (.mat false n n (toXR (Spec.among x e))) k "distance" none nJobs' = .ok ⟨n, toXR M'⟩ ∧
      ∀ i j, Spec.FarOutside x e k i → Spec.FarOutside x e k j → M (e i) (e j) = c * M' i j := by
  have hnN : n ≤ N := by simpa using Fintype.card_le_of_embedding e
  have hg := geometricMean_pos _ hpos
  have hg' := geometricMean_pos _ hpos'
  refine ⟨_, _, _, div_pos hg hg', C32_formula w x hsym k h1 none nJobs A hA hpos (by omega),
    C32_formula w' (Spec.among x e) (fun i j => hsym _ _) k h1 none nJobs' B hB hpos' hn, ?_⟩
  have same : ∀ i, Spec.FarOutside x e k i → Spec.meanOver (A (e i)) (x (e i)) = Spec.meanOver (B i) (Spec.among x e i) := fun i hf => by
    have h2 := hA (e i)
    have h3 := hB i
    rw [training_none] at h2 h3
    have h4 := nearest_sum_unique h2 (nearest_among hf h3)
    rw [Finset.sum_map] at h4
    unfold Spec.meanOver
    rw [h4, h2.card, h3.card]
    rfl
  intro i j hi hj
  beta_reduce
  rw [same i hi, same j hj]
  by_cases hij : i = j
  · simp [hij]
  · rw [if_neg hij, if_neg (fun h => hij (e.injective h))]
    unfold Spec.nicdm Spec.among at *
    field_simp

end HubToolbox.LS

namespace HubToolbox.SNN

open HubToolbox

variable {K : Type} [Field K] [LinearOrder K] [IsStrictOrderedRing K]

/-- **C228** (shared nearest neighbours). -/
theorem C228_snn (w w' : World K) {n N : ℕ} (x : Fin N → Fin N → K) (e : Fin n ↪ Fin N)
    (k : ℕ) (h1 : 1 ≤ k) (hk : k < n) (nJobs nJobs' : ℤ) :
    ∃ (M : Fin N → Fin N → K) (M' : Fin n → Fin n → K),
      sharedNearestNeighbors w (.mat false N N fun i j => .fin (x i j)) k "distance" nJobs = .ok ⟨N, fun i j => .fin (M i j)⟩ ∧
      sharedNearestNeighbors w' (.mat false n n fun i j => .fin (Spec.among x e i j)) k "distance" nJobs' =
        .ok ⟨n, fun i j => .fin (M' i j)⟩ ∧
      ∀ i j, (∀ a b, a ≠ i → b ≠ i → Spec.among x e i a = Spec.among x e i b → a = b) →
        (∀ a b, a ≠ j → b ≠ j → Spec.among x e j a = Spec.among x e j b → a = b) →
        Spec.FarOutside x e k i → Spec.FarOutside x e k j → M (e i) (e j) = M' i j := by
  have hnN : n ≤ N := by simpa using Fintype.card_le_of_embedding e
  obtain ⟨A, hA, h⟩ := C34_formula w _ x (fun _ _ _ => rfl) k h1 (hk.trans_le hnN) "distance" (Or.inl rfl) nJobs
  obtain ⟨B, hB, h'⟩ := C34_formula w' _ (Spec.among x e) (fun _ _ _ => rfl) k h1 hk "distance" (Or.inl rfl) nJobs'
  refine ⟨_, _, h, h', ?_⟩
  have same : ∀ i, (∀ a b, a ≠ i → b ≠ i → Spec.among x e i a = Spec.among x e i b → a = b) → Spec.FarOutside x e k i →
      A (e i) = (B i).map e := by
    intro i hties hf
    refine Finset.eq_of_subset_of_card_le (fun z hz => ?_) (by rw [Finset.card_map, (hA _).card, (hB _).card])
    have hz' := Finset.mem_erase.1 ((hA (e i)).sub hz)
    by_cases hc : ∃ c, e c = z
    · obtain ⟨c, rfl⟩ := hc
      refine Finset.mem_map_of_mem _ (Spec.IsHood.sub_of e ?_ (hB i) (hA (e i)) le_rfl ?_ c
        (Finset.mem_erase.2 ⟨fun h' => hz'.1 (by rw [h']), Finset.mem_univ _⟩) hz)
      · exact fun c hc => Finset.mem_erase.2 ⟨fun h' => (Finset.mem_erase.1 hc).1 (e.injective h'), Finset.mem_univ _⟩
      · intro a ha b hb e1 e2
        exact hties a b (Finset.mem_erase.1 ha).1 (Finset.mem_erase.1 hb).1 (Spec.nearer_anti _ e1 e2)
    · exfalso
      have h2 := hf z fun c h' => hc ⟨c, h'⟩
      have hs : ((Finset.univ.erase i).filter fun c => x (e i) (e c) < x (e i) z).map e ⊆ (A (e i)).erase z := by
        intro y hy
        obtain ⟨c, hc', rfl⟩ := Finset.mem_map.1 hy
        rw [Finset.mem_filter] at hc'
        refine Finset.mem_erase.2 ⟨fun h' => hc ⟨c, h'⟩, ?_⟩
        by_contra hcA
        have := (hA (e i)).best z hz (e c)
          (Finset.mem_erase.2 ⟨fun h' => (Finset.mem_erase.1 hc'.1).1 (e.injective h'), Finset.mem_univ _⟩) hcA
        simp only [Spec.nearer, String.reduceEq, if_false] at this
        exact this.not_gt hc'.2
      have h3 := Finset.card_le_card hs
      rw [Finset.card_map, Finset.card_erase_of_mem hz, (hA _).card] at h3
      omega
  intro i j ti tj hi hj
  beta_reduce
  rw [same i ti hi, same j tj hj]
  by_cases hij : i = j
  · simp [hij]
  · rw [if_neg hij, if_neg (fun h => hij (e.injective h))]
    unfold Spec.snn Spec.commonFraction
    rw [← Finset.map_inter, Finset.card_map]

end HubToolbox.SNN

namespace HubToolbox.Hubness

open HubToolbox HubToolbox.Spec

variable {K : Type} [Field K] [LinearOrder K] [IsStrictOrderedRing K]

theorem effective_among {n N : ℕ} (D : Fin N → Fin N → XR K) (e : Fin n ↪ Fin N) (metric : String) (i j : Fin n) :
    effective metric (among D e) i j = effective metric D (e i) (e j) := by
  unfold effective among
  simp only [true_and, ne_eq, not_true_eq_false, false_and, or_false, ← Fin.ext_iff, e.injective.eq_iff]

theorem knn_among {α : Type} [LinearOrder α] {n N k : ℕ} {x : Fin N → Fin N → α} {e : Fin n ↪ Fin N} {i : Fin n} {L : List (Fin n)}
    (hf : FarOutside x e k i) (h : IsKnn (closer "distance") (among x e i) k L) : IsKnn (closer "distance") (x (e i)) k (L.map e) := by
  refine ⟨by rw [List.length_map, h.length], h.distinct.map e.injective, List.pairwise_map.2 h.sorted, fun a ha b hb => ?_⟩
  obtain ⟨a, ha', rfl⟩ := List.mem_map.1 ha
  by_cases hc : ∃ c, e c = b
  · obtain ⟨c, rfl⟩ := hc
    exact h.best a ha' c fun h' => hb (List.mem_map_of_mem h')
  · change x (e i) (e a) ≤ x (e i) b
    by_contra hlt
    rw [not_le] at hlt
    have hs : ((Finset.univ.erase i).filter fun c => x (e i) (e c) < x (e i) b) ⊆ L.toFinset.erase a := by
      intro c hc
      rw [Finset.mem_filter] at hc
      refine Finset.mem_erase.2 ⟨fun h' => (hc.2.trans hlt).ne (by rw [h']), ?_⟩
      by_contra hcL
      have h2 : x (e i) (e a) ≤ x (e i) (e c) := h.best a ha' c fun h' => hcL (List.mem_toFinset.2 h')
      exact (h2.trans_lt hc.2).not_gt hlt
    have h1 := hf b fun c h' => hc ⟨c, h'⟩
    have h2 := Finset.card_le_card hs
    rw [Finset.card_erase_of_mem (List.mem_toFinset.2 ha'), List.toFinset_card_of_nodup h.distinct, h.length] at h2
    have : 0 < k := by rw [← h.length]; exact List.length_pos_of_mem ha'
    omega

/-- **C228** (`hubness`): the neighbour lists of the objects are the same, and so are the k-occurrences if also the objects outside of the
list have `k` nearer neighbours outside. -/
theorem C228_hubness (o o' : ArgPart (XR K)) (rnd rnd' : Rnd) (sched sched' : Schedule) {n N : ℕ} (sparse sparse' : Bool)
    (D : Fin N → Fin N → XR K) (e : Fin n ↪ Fin N) (k : ℕ) (hk : k < n) (nJobs nJobs' : ℤ) (seed seed' shuffle shuffle' : Bool)
    (htf : TieFree "distance" D) (r : Res N) (r' : Res n)
    (h : hubnessMat o rnd sched sparse D k "distance" nJobs seed shuffle = .ok r)
    (h' : hubnessMat o' rnd' sched' sparse' (among D e) k "distance" nJobs' seed' shuffle' = .ok r') :
    (∀ i, FarOutside (effective "distance" D) e k i →
      ∃ L : List (Fin n), r'.Dk i = L.map Fin.val ∧ r.Dk (e i) = L.map fun c => (e c).val) ∧
    ((∀ i, FarOutside (effective "distance" D) e k i) →
      (∀ z, (∀ c, e c ≠ z) → ∀ c, k ≤ ((Finset.univ.erase z).filter fun y =>
        (∀ c', e c' ≠ y) ∧ effective "distance" D z y < effective "distance" D z (e c)).card) →
      ∀ c (hc : (e c).val < r.Nk.length) (hc' : c.val < r'.Nk.length), r.Nk[(e c).val] = r'.Nk[c.val]) := by
  have hnN : n ≤ N := by simpa using Fintype.card_le_of_embedding e
  have cov : Covered nJobs "distance" N N := fun h => h.2.2 rfl
  have cov' : Covered nJobs' "distance" n n := fun h => h.2.2 rfl
  have hk1 : (min (k : ℤ) ((N : ℤ) - 1)).toNat = k := by rw [min_eq_left (by omega)]; simp
  have hk2 : (min (k : ℤ) ((n : ℤ) - 1)).toNat = k := by rw [min_eq_left (by omega)]; simp
  have A : ∀ i, FarOutside (effective "distance" D) e k i →
      ∃ L : List (Fin n), r'.Dk i = L.map Fin.val ∧ r.Dk (e i) = L.map fun c => (e c).val := by
    intro i hf
    obtain ⟨L, e1, hL⟩ := C01_hubness_knn o rnd sched sparse D k "distance" nJobs seed shuffle cov r h (e i)
    obtain ⟨L', e2, hL'⟩ := C01_hubness_knn o' rnd' sched' sparse' _ k "distance" nJobs' seed' shuffle' cov' r' h' i
    rw [hk1] at hL
    rw [hk2, show effective "distance" (among D e) i = among (effective "distance" D) e i from funext (effective_among D e _ i)] at hL'
    have := hL.unique (knn_among hf hL') (fun a b h1 h2 => htf _ (closer_anti h1 h2))
    exact ⟨L', e2, by rw [e1, this, List.map_map]; rfl⟩
  refine ⟨A, fun hf hz c hc hc' => ?_⟩
  obtain ⟨-, ho, -⟩ := C03_k_occurrence o rnd sched sparse D k "distance" nJobs seed shuffle cov r h
  obtain ⟨-, ho', -⟩ := C03_k_occurrence o' rnd' sched' sparse' _ k "distance" nJobs' seed' shuffle' cov' r' h'
  rw [(ho _ hc).1, (ho' _ hc').1]
  unfold occurrences
  rw [← Finset.card_map e]
  congr 1
  ext z
  simp only [Finset.mem_filter, Finset.mem_univ, true_and, Finset.mem_map]
  constructor
  · intro hm
    by_cases hr : ∃ i, e i = z
    · obtain ⟨i, rfl⟩ := hr
      obtain ⟨L, e1, e2⟩ := A i (hf i)
      rw [e2, List.mem_map] at hm
      obtain ⟨d, hd, ed⟩ := hm
      refine ⟨i, ?_, rfl⟩
      rw [e1, ← e.injective (Fin.ext ed)]
      exact List.mem_map_of_mem hd
    · exfalso
      have hout : ∀ c, e c ≠ z := fun c h' => hr ⟨c, h'⟩
      obtain ⟨L, e1, hL⟩ := C01_hubness_knn o rnd sched sparse D k "distance" nJobs seed shuffle cov r h z
      rw [hk1] at hL
      rw [e1, List.mem_map] at hm
      obtain ⟨d, hd, ed⟩ := hm
      rw [Fin.ext ed] at hd
      have hs : ((Finset.univ.erase z).filter fun y => (∀ c', e c' ≠ y) ∧ effective "distance" D z y < effective "distance" D z (e c)) ⊆
          L.toFinset.erase (e c) := by
        intro y hy
        rw [Finset.mem_filter] at hy
        refine Finset.mem_erase.2 ⟨fun h' => hy.2.1 c h'.symm, ?_⟩
        by_contra hyL
        have h2 : effective "distance" D z (e c) ≤ effective "distance" D z y :=
          hL.best (e c) hd y fun h' => hyL (List.mem_toFinset.2 h')
        exact h2.not_gt hy.2.2
      have h1 := hz z hout c
      have h2 := Finset.card_le_card hs
      rw [Finset.card_erase_of_mem (List.mem_toFinset.2 hd), List.toFinset_card_of_nodup hL.distinct, hL.length] at h2
      have : 0 < k := by rw [← hL.length]; exact List.length_pos_of_mem hd
      omega
  · rintro ⟨i, hi, rfl⟩
    obtain ⟨L, e1, e2⟩ := A i (hf i)
    rw [e1, List.mem_map] at hi
    obtain ⟨d, hd, ed⟩ := hi
    rw [e2, ← Fin.ext ed]
    exact List.mem_map.2 ⟨d, hd, rfl⟩

end HubToolbox.Hubness

/-! ### The hypotheses are satisfiable -/

namespace HubToolbox.Spec

/-- Two groups of three points on a line. -/
def twoGroups : Fin 6 → Fin 6 → ℤ := fun i j =>
  |(![0, 1, 3, 100, 102, 106] : Fin 6 → ℤ) i - (![0, 1, 3, 100, 102, 106] : Fin 6 → ℤ) j|

/-- The first group. -/
def firstGroup : Fin 3 ↪ Fin 6 := Fin.castLEEmb (by norm_num)

theorem twoGroups_far (i : Fin 3) : FarOutside (fun a b => (twoGroups a b : ℝ)) firstGroup 2 i := by
  intro z hz
  simp only [Int.cast_lt]
  revert i z
  decide

end HubToolbox.Spec

namespace HubToolbox

open Spec

theorem twoGroups_symm (i j : Fin 6) : ((twoGroups i j : ℤ) : ℝ) = (twoGroups j i : ℤ) := by
  rw [show twoGroups i j = twoGroups j i from abs_sub_comm _ _]

theorem twoGroups_pos (i j : Fin 6) (h : i ≠ j) : (0 : ℝ) < (twoGroups i j : ℤ) := by
  rw [Int.cast_pos]; revert i j; decide

example (w w' : LS.World) (i j : Fin 3) :
    ∃ (M : Fin 6 → Fin 6 → ℝ) (M' : Fin 3 → Fin 3 → ℝ),
      LS.localScaling w (.mat false 6 6 (LS.toXR fun a b => (twoGroups a b : ℝ))) (2 : ℕ) "distance" none 1 = .ok ⟨6, LS.toXR M⟩ ∧
      LS.localScaling w' (.mat false 3 3 (LS.toXR (among (fun a b => (twoGroups a b : ℝ)) firstGroup))) (2 : ℕ) "distance" none 4 = .ok ⟨3, LS.toXR M'⟩ ∧
      M (firstGroup i) (firstGroup j) = M' i j := by
  obtain ⟨M, M', h, h', he⟩ := LS.C228_local_scaling w w' _ firstGroup twoGroups_symm twoGroups_pos 2 (by norm_num) (by norm_num) 1 4
    (by norm_num) (by norm_num)
  exact ⟨M, M', h, h', he i j (twoGroups_far i) (twoGroups_far j)⟩

example (w w' : SNN.World ℝ) (i j : Fin 3) :
    ∃ (M : Fin 6 → Fin 6 → ℝ) (M' : Fin 3 → Fin 3 → ℝ),
      SNN.sharedNearestNeighbors w (.mat false 6 6 fun a b => .fin (twoGroups a b : ℝ)) (2 : ℕ) "distance" 1 = .ok ⟨6, fun a b => .fin (M a b)⟩ ∧
      SNN.sharedNearestNeighbors w' (.mat false 3 3 fun a b => .fin (among (fun a b => (twoGroups a b : ℝ)) firstGroup a b)) (2 : ℕ)
        "distance" 4 = .ok ⟨3, fun a b => .fin (M' a b)⟩ ∧
      M (firstGroup i) (firstGroup j) = M' i j := by
  obtain ⟨M, M', h, h', he⟩ := SNN.C228_snn w w' (fun a b => (twoGroups a b : ℝ)) firstGroup 2 (by norm_num) (by norm_num) 1 4
  have ties : ∀ i a b : Fin 3, a ≠ i → b ≠ i → among (fun a b => (twoGroups a b : ℝ)) firstGroup i a =
      among (fun a b => (twoGroups a b : ℝ)) firstGroup i b → a = b := by
    intro i a b ha hb hab
    unfold among at hab
    rw [Int.cast_inj] at hab
    revert i a b
    decide
  exact ⟨M, M', h, h', he i j (ties i) (ties j) (twoGroups_far i) (twoGroups_far j)⟩

theorem twoGroups_nearest (i : Fin 6) : IsNearest ((training 6 none).erase i) (fun j => (twoGroups i j : ℝ)) 2
    ((![{1, 2}, {0, 2}, {0, 1}, {4, 5}, {3, 5}, {3, 4}] : Fin 6 → Finset (Fin 6)) i) := by
  rw [LS.training_none]
  refine ⟨?_, ?_, fun a ha b hb hb' => ?_⟩
  · revert i; decide
  · revert i; decide
  · rw [Int.cast_le]
    revert i a b
    decide

theorem firstGroup_nearest (i : Fin 3) : IsNearest ((training 3 none).erase i) (among (fun a b => (twoGroups a b : ℝ)) firstGroup i) 2
    ((![{1, 2}, {0, 2}, {0, 1}] : Fin 3 → Finset (Fin 3)) i) := by
  rw [LS.training_none]
  refine ⟨?_, ?_, fun a ha b hb hb' => ?_⟩
  · revert i; decide
  · revert i; decide
  · unfold among
    rw [Int.cast_le]
    revert i a b
    decide

theorem meanOver_pos {ι : Type} {S : Finset ι} {f : ι → ℝ} (hS : S.Nonempty) (hf : ∀ i ∈ S, 0 < f i) : 0 < meanOver S f :=
  div_pos (Finset.sum_pos hf hS) (by exact_mod_cast hS.card_pos)

example (w w' : LS.World) := LS.C228_nicdm w w' _ firstGroup twoGroups_symm 2 (by norm_num) 1 4 _ _ twoGroups_nearest
  (fun i => meanOver_pos (Finset.card_pos.1 (by rw [(twoGroups_nearest i).card]; norm_num))
    fun j hj => twoGroups_pos i j (Finset.mem_erase.1 ((twoGroups_nearest i).sub hj)).1.symm) firstGroup_nearest
  (fun i => meanOver_pos (Finset.card_pos.1 (by rw [(firstGroup_nearest i).card]; norm_num))
    fun j hj => twoGroups_pos _ _ fun h => (Finset.mem_erase.1 ((firstGroup_nearest i).sub hj)).1.symm (firstGroup.injective h))
  (by norm_num)

end HubToolbox

namespace HubToolbox.Hubness

open HubToolbox.Spec

/-- The two groups as a matrix for `hubness`. -/
def groupsD : Fin 6 → Fin 6 → XR ℚ := fun i j => .fin (twoGroups i j)

theorem groupsD_tieFree : TieFree "distance" groupsD := by
  unfold TieFree Function.Injective
  decide +kernel

theorem groupsD_far (i : Fin 3) : FarOutside (effective "distance" groupsD) firstGroup 2 i := by
  unfold FarOutside
  revert i
  decide +kernel

theorem groupsD_outside (z : Fin 6) (hz : ∀ c, firstGroup c ≠ z) (c : Fin 3) : 2 ≤ ((Finset.univ.erase z).filter fun y =>
    (∀ c', firstGroup c' ≠ y) ∧ effective "distance" groupsD z y < effective "distance" groupsD z (firstGroup c)).card := by
  revert z c
  decide +kernel

example (o o' : ArgPart (XR ℚ)) (rnd rnd' : Rnd) := (C228_hubness o o' rnd rnd' rowMajor reverseOrder false false groupsD firstGroup 2
  (by norm_num) 1 1 true true true true groupsD_tieFree _ _
  ((C01_hubness_succeeds_iff o rnd rowMajor false groupsD 2 "distance" 1 true true (by simp [Covered])).2 (by decide)).choose_spec
  ((C01_hubness_succeeds_iff o' rnd' reverseOrder false (among groupsD firstGroup) 2 "distance" 1 true true (by simp [Covered])).2
    (by decide)).choose_spec).2 groupsD_far groupsD_outside

end HubToolbox.Hubness
