import Verif.Approx.LocalRadii
import Verif.Approx.Hnsw

/-!
# Local scaling and NICDM with an index of nearest neighbours
-/

set_option autoImplicit false

namespace HubToolbox.Approx

open HubToolbox

/-- The largest of `k` nearest values is the `k`-th smallest. -/
theorem kth_of_nearest {ι : Type} [DecidableEq ι] {S : Finset ι} {f : ι → ℝ} {k : ℕ} {N : Finset ι}
    (h : Spec.IsNearest S f k N) (a : ι) (ha : a ∈ N) (hmax : ∀ b ∈ N, f b ≤ f a) : Spec.IsKthSmallest S f k (f a) := by
  refine ⟨⟨a, h.sub ha, rfl⟩, ?_, ?_⟩
  · have hsub : S.filter (fun b => f b < f a) ⊆ N.erase a := by
      intro b hb
      rw [Finset.mem_filter] at hb
      refine Finset.mem_erase.2 ⟨fun hc => ?_, ?_⟩
      · rw [hc] at hb; exact lt_irrefl _ hb.2
      · by_contra hc
        exact absurd hb.2 (not_lt.2 (h.best a ha b hb.1 hc))
    refine lt_of_le_of_lt (Finset.card_le_card hsub) ?_
    rw [← h.card]
    exact Finset.card_erase_lt_of_mem ha
  · rw [← h.card]
    exact Finset.card_le_card (fun b hb => Finset.mem_filter.2 ⟨h.sub hb, hmax b hb⟩)

theorem exact_inj {n k : ℕ} {dq : Fin n → ℝ} {a : Answer ℝ n} (h : Spec.ExactAnswer dq k a) (m : ℕ) (hm : m ≤ a.length) :
    Function.Injective (fun c : Fin m => (a[c.val]'(by omega)).1) := by
  intro c c' hcc
  have h1 : (a.map Prod.fst)[c.val]'(by rw [List.length_map]; omega) =
      (a.map Prod.fst)[c'.val]'(by rw [List.length_map]; omega) := by
    simpa using hcc
  exact Fin.ext ((List.Nodup.getElem_inj_iff h.nodup).1 h1)

/-- The first neighbours of an exact answer are nearest, also after an increasing transformation. -/
theorem exact_nearest {n k : ℕ} {dq : Fin n → ℝ} {a : Answer ℝ n} (h : Spec.ExactAnswer dq k a) (h0 : ∀ x, 0 ≤ dq x)
    (post : ℝ → ℝ) (hpost : ∀ a b, 0 ≤ a → a ≤ b → post a ≤ post b) (m : ℕ) (hm : m ≤ a.length) :
    Spec.IsNearest Finset.univ (fun x => post (dq x)) m
      (Finset.univ.image (fun c : Fin m => (a[c.val]'(by omega)).1)) := by
  refine ⟨Finset.subset_univ _, ?_, ?_⟩
  · rw [Finset.card_image_of_injective _ (exact_inj h m hm), Finset.card_univ, Fintype.card_fin]
  · intro x hx y _ hy
    obtain ⟨c, _, rfl⟩ := Finset.mem_image.1 hx
    have hval : ∀ i (hi : i < a.length), dq (a[i]).1 = (a[i]).2 := fun i hi => (h.value _ (List.getElem_mem hi)).symm
    refine hpost _ _ (h0 _) ?_
    by_cases hmem : y ∈ a.map Prod.fst
    · obtain ⟨p, hp, rfl⟩ := List.mem_map.1 hmem
      obtain ⟨j, hj, rfl⟩ := List.mem_iff_getElem.1 hp
      rw [hval, hval]
      refine sorted_le h.sorted ?_ hj
      by_contra hc
      exact hy (Finset.mem_image.2 ⟨⟨j, by omega⟩, Finset.mem_univ _, rfl⟩)
    · rw [hval]
      exact h.best _ (List.getElem_mem _) y hmem

theorem exact_kth {n k : ℕ} {dq : Fin n → ℝ} {a : Answer ℝ n} (h : Spec.ExactAnswer dq k a) (h0 : ∀ x, 0 ≤ dq x)
    (post : ℝ → ℝ) (hpost : ∀ a b, 0 ≤ a → a ≤ b → post a ≤ post b) (m : ℕ) (hm : m < a.length) :
    Spec.IsKthSmallest Finset.univ (fun x => post (dq x)) (m + 1) (post (a[m]).2) := by
  have hval : ∀ i (hi : i < a.length), dq (a[i]).1 = (a[i]).2 := fun i hi => (h.value _ (List.getElem_mem hi)).symm
  have h1 := kth_of_nearest (exact_nearest h h0 post hpost (m + 1) hm) (a[m]).1
    (Finset.mem_image.2 ⟨⟨m, by omega⟩, Finset.mem_univ _, rfl⟩) (by
      intro b hb
      obtain ⟨c, _, rfl⟩ := Finset.mem_image.1 hb
      refine hpost _ _ (h0 _) ?_
      rw [hval, hval]
      exact sorted_le h.sorted (by omega) hm)
  rwa [hval] at h1

theorem exact_sum {n k : ℕ} {dq : Fin n → ℝ} {a : Answer ℝ n} (h : Spec.ExactAnswer dq k a) (h0 : ∀ x, 0 ≤ dq x)
    (post : ℝ → ℝ) (hpost : ∀ a b, 0 ≤ a → a ≤ b → post a ≤ post b) (m : ℕ) (hm : m ≤ a.length) (N : Finset (Fin n))
    (hN : Spec.IsNearest Finset.univ (fun x => post (dq x)) m N) :
    ∑ c : Fin m, post (a[c.val]'(by omega)).2 = ∑ x ∈ N, post (dq x) := by
  rw [LS.nearest_sum_unique hN (exact_nearest h h0 post hpost m hm),
    Finset.sum_image (fun a _ b _ hab => exact_inj h m hm hab)]
  refine Finset.sum_congr rfl (fun c _ => ?_)
  rw [h.value _ (List.getElem_mem _)]

/-- The distances after the first one of an exact answer are those to the other points, if the query itself is one. -/
theorem exact_sum_tail {n k : ℕ} {dq : Fin n → ℝ} {a : Answer ℝ n} (h : Spec.ExactAnswer dq k a) (h0 : ∀ x, 0 ≤ dq x)
    (post : ℝ → ℝ) (hpost : ∀ a b, 0 ≤ a → a ≤ b → post a ≤ post b) (hp0 : post 0 = 0) (i : Fin n) (hi : dq i = 0)
    (m : ℕ) (hm : m < a.length) (N : Finset (Fin n))
    (hN : Spec.IsNearest (Finset.univ.erase i) (fun x => post (dq x)) m N) :
    ∑ c : Fin m, post (a[c.val + 1]'(by omega)).2 = ∑ x ∈ N, post (dq x) := by
  have hz : post (a[0]'(by omega)).2 = 0 := by
    have h1 := kth_of_nearest (nearest_insert_self (fun x => post (dq x)) i (by rw [hi, hp0])
      (fun x => by rw [← hp0]; exact hpost _ _ le_rfl (h0 x)) 0 ∅ ⟨Finset.empty_subset _, rfl, by simp⟩) i (by simp)
      (by simp)
    have h2 := LS.kthSmallest_unique h1 (exact_kth h h0 post hpost 0 (by omega))
    rw [← h2, hi, hp0]
  have h1 := exact_sum h h0 post hpost (m + 1) hm _ (nearest_insert_self (fun x => post (dq x)) i
    (by rw [hi, hp0]) (fun x => by rw [← hp0]; exact hpost _ _ le_rfl (h0 x)) m N hN)
  rw [Fin.sum_univ_succ, Finset.sum_insert (fun hc => Finset.notMem_erase i _ (hN.sub hc)), hi, hp0] at h1
  simp only [Fin.val_zero, hz, zero_add, Fin.val_succ] at h1
  exact h1

/-- What `LS` and `NICDM` compute from exact answers. -/
theorem hnswLS_char {n t : ℕ} (kth k : ℕ) (hkk : kth ≤ k) (hn : 0 < n) (hk : 0 < k) (dTrain : Fin n → Fin n → ℝ)
    (dTest : Fin t → Fin n → ℝ) (trainQuery : Fin n → ℕ → Answer ℝ n) (testQuery : Fin t → ℕ → Answer ℝ n)
    (post : ℝ → ℝ) (nic : Bool)
    (htrain : ∀ i, Spec.ExactAnswer (dTrain i) (k + 1) (trainQuery i (k + 1)))
    (htest : ∀ i, Spec.ExactAnswer (dTest i) k (testQuery i k)) :
    ∃ (out : Fin t → Fin k → Fin n × XR ℝ) (hne1 : ∀ i, trainQuery i (k + 1) ≠ []) (hne2 : ∀ i, testQuery i k ≠ []),
      hnswLS trainQuery testQuery post nic kth k = .ok out ∧ ∀ i j,
        (out i j).1 = ((testQuery i k)[min j.val ((testQuery i k).length - 1)]'(min_lt_length (hne2 i) _)).1 ∧
        (out i j).2 = lsEntry nic (.fin (post (dTest i (out i j).1)))
          (firstCols (k := k) kth (fun c => .fin (post
            ((testQuery i k)[min c.val ((testQuery i k).length - 1)]'(min_lt_length (hne2 i) _)).2)))
          (firstCols (k := k) kth (fun c => .fin (post
            ((trainQuery (out i j).1 (k + 1))[min (c.val + 1) ((trainQuery (out i j).1 (k + 1)).length - 1)]'(
              min_lt_length (hne1 _) _)).2))) := by
  have hne1 : ∀ i, trainQuery i (k + 1) ≠ [] := fun i h => by
    have := (htrain i).length; rw [h] at this; simp at this; omega
  have hne2 : ∀ i, testQuery i k ≠ [] := fun i h => by
    have := (htest i).length; rw [h] at this; simp at this; omega
  have hfit : hnswFit trainQuery post k = .ok (fun i c =>
      (((trainQuery i (k + 1))[min (c.val + 1) ((trainQuery i (k + 1)).length - 1)]'(min_lt_length (hne1 i) _)).1,
        post ((trainQuery i (k + 1))[min (c.val + 1) ((trainQuery i (k + 1)).length - 1)]'(min_lt_length (hne1 i) _)).2)) := by
    refine tabulateM_ok _ _ (fun i => ?_)
    simp only
    rw [padRow_tail k _ (hne1 i) (htrain i).sorted]
    rfl
  have htr : hnswTrafo testQuery post k = .ok (fun i c =>
      (((testQuery i k)[min c.val ((testQuery i k).length - 1)]'(min_lt_length (hne2 i) _)).1,
        post ((testQuery i k)[min c.val ((testQuery i k).length - 1)]'(min_lt_length (hne2 i) _)).2)) := by
    refine tabulateM_ok _ _ (fun i => ?_)
    simp only
    rw [padRow_all k _ (hne2 i) (htest i).sorted]
    rfl
  have hif : ¬ (nic = false ∧ k < kth) := fun h => absurd h.2 (by omega)
  have hex : ∃ out, hnswLS trainQuery testQuery post nic kth k = .ok out ∧ out = _ :=
    ⟨_, by unfold hnswLS; rw [hfit, htr]; simp only [bind, Except.bind, pure, Except.pure, if_neg hif]; rfl, rfl⟩
  obtain ⟨out, ho, rfl⟩ := hex
  refine ⟨_, hne1, hne2, ho, fun i j => ⟨rfl, ?_⟩⟩
  simp only
  rw [(htest i).value _ (List.getElem_mem _)]

/-- C133: if the index answers exactly, local scaling with an index is the formula with the true radii: the `kth`-th
smallest distance of the test object to all training objects, and of the training object to all others. -/
theorem C133_ls {n t : ℕ} (kth k : ℕ) (h1 : 0 < kth) (hkk : kth ≤ k) (hn : kth < n) (dTrain : Fin n → Fin n → ℝ)
    (dTest : Fin t → Fin n → ℝ) (trainQuery : Fin n → ℕ → Answer ℝ n) (testQuery : Fin t → ℕ → Answer ℝ n)
    (post : ℝ → ℝ) (hpost : ∀ a b, 0 ≤ a → a ≤ b → post a ≤ post b) (hp0 : post 0 = 0)
    (hd0 : ∀ i, dTrain i i = 0) (hd : ∀ i j, 0 ≤ dTrain i j) (hte : ∀ i j, 0 ≤ dTest i j)
    (htrain : ∀ i, Spec.ExactAnswer (dTrain i) (k + 1) (trainQuery i (k + 1)))
    (htest : ∀ i, Spec.ExactAnswer (dTest i) k (testQuery i k)) :
    ∃ out, hnswLS trainQuery testQuery post false kth k = .ok out ∧
      ∀ i, (∀ x, (∃ j, (out i j).1 = x) ↔ x ∈ (testQuery i k).map Prod.fst) ∧ ∀ j (ρ ρ' : ℝ),
        Spec.IsKthSmallest Finset.univ (fun x => post (dTest i x)) kth ρ →
        Spec.IsKthSmallest (Finset.univ.erase (out i j).1) (fun x => post (dTrain (out i j).1 x)) kth ρ' →
        0 < ρ → 0 < ρ' →
        (out i j).2 = .fin (Spec.localScaling (post (dTest i (out i j).1)) ρ ρ') := by
  obtain ⟨out, hne1, hne2, ho, hv⟩ := hnswLS_char kth k hkk (by omega) (by omega) dTrain dTest trainQuery testQuery post
    false htrain htest
  have hl1 : ∀ i, (trainQuery i (k + 1)).length = min (k + 1) n := fun i => (htrain i).length
  have hl2 : ∀ i, (testQuery i k).length = min k n := fun i => (htest i).length
  refine ⟨out, ho, fun i => ⟨fun x => ?_, fun j ρ ρ' hr hr' hp hp' => ?_⟩⟩
  · constructor
    · rintro ⟨j, rfl⟩
      rw [(hv i j).1]
      exact List.mem_map.2 ⟨_, List.getElem_mem _, rfl⟩
    · intro hx
      obtain ⟨p, hp, rfl⟩ := List.mem_map.1 hx
      obtain ⟨m, hm, rfl⟩ := List.mem_iff_getElem.1 hp
      have hm' : m < min k n := by rw [← hl2 i]; exact hm
      refine ⟨⟨m, by omega⟩, ?_⟩
      rw [(hv i _).1]
      have hmin : min m ((testQuery i k).length - 1) = m := by omega
      simp only [hmin]
  · rw [(hv i j).2]
    have hmin : min kth k = kth := Nat.min_eq_left hkk
    unfold lsEntry lastOf
    rw [if_neg (by decide), dif_pos (by omega), dif_pos (by omega)]
    unfold firstCols
    simp only [hmin]
    have e1 : min (kth - 1) ((testQuery i k).length - 1) = kth - 1 := by rw [hl2]; omega
    have e2 : min (kth - 1 + 1) ((trainQuery (out i j).1 (k + 1)).length - 1) = kth := by rw [hl1]; omega
    simp only [e1, e2]
    have hk1 : kth - 1 + 1 = kth := by omega
    have q1 := exact_kth (htest i) (hte i) post hpost (kth - 1) (by rw [hl2]; omega)
    rw [hk1] at q1
    have q2 := kth_without_self _ (out i j).1 (by rw [hd0, hp0])
      (fun x => by rw [← hp0]; exact hpost _ _ le_rfl (hd _ x)) kth h1 _
      (exact_kth (htrain (out i j).1) (hd _) post hpost kth (by rw [hl1]; omega))
    rw [← LS.kthSmallest_unique hr q1, ← LS.kthSmallest_unique hr' q2, LS.entry_distance _ _ _ hp hp']

/-- C133: the same for NICDM: the distance is divided by the geometric mean of the true mean neighbour distances. -/
theorem C133_nicdm {n t : ℕ} (kth k : ℕ) (h1 : 0 < kth) (hkk : kth ≤ k) (hn : kth < n) (dTrain : Fin n → Fin n → ℝ)
    (dTest : Fin t → Fin n → ℝ) (trainQuery : Fin n → ℕ → Answer ℝ n) (testQuery : Fin t → ℕ → Answer ℝ n)
    (post : ℝ → ℝ) (hpost : ∀ a b, 0 ≤ a → a ≤ b → post a ≤ post b) (hp0 : post 0 = 0)
    (hd0 : ∀ i, dTrain i i = 0) (hd : ∀ i j, 0 ≤ dTrain i j) (hte : ∀ i j, 0 ≤ dTest i j)
    (htrain : ∀ i, Spec.ExactAnswer (dTrain i) (k + 1) (trainQuery i (k + 1)))
    (htest : ∀ i, Spec.ExactAnswer (dTest i) k (testQuery i k)) :
    ∃ out, hnswLS trainQuery testQuery post true kth k = .ok out ∧
      ∀ i j (N N' : Finset (Fin n)),
        Spec.IsNearest Finset.univ (fun x => post (dTest i x)) kth N →
        Spec.IsNearest (Finset.univ.erase (out i j).1) (fun x => post (dTrain (out i j).1 x)) kth N' →
        0 < Spec.meanOver N (fun x => post (dTest i x)) →
        0 < Spec.meanOver N' (fun x => post (dTrain (out i j).1 x)) →
        (out i j).2 = .fin (post (dTest i (out i j).1) /
          √(Spec.meanOver N (fun x => post (dTest i x)) * Spec.meanOver N' (fun x => post (dTrain (out i j).1 x)))) := by
  obtain ⟨out, hne1, hne2, ho, hv⟩ := hnswLS_char kth k hkk (by omega) (by omega) dTrain dTest trainQuery testQuery post
    true htrain htest
  have hl1 : ∀ i, (trainQuery i (k + 1)).length = min (k + 1) n := fun i => (htrain i).length
  have hl2 : ∀ i, (testQuery i k).length = min k n := fun i => (htest i).length
  refine ⟨out, ho, fun i j N N' hN hN' hp hp' => ?_⟩
  rw [(hv i j).2]
  have hmin : min kth k = kth := Nat.min_eq_left hkk
  unfold lsEntry firstCols
  rw [if_pos rfl, mean_fin (by omega), mean_fin (by omega)]
  have e1 : ∀ c : Fin (min kth k), min c.val ((testQuery i k).length - 1) = c.val := by
    intro c; rw [hl2]; omega
  have e2 : ∀ c : Fin (min kth k), min (c.val + 1) ((trainQuery (out i j).1 (k + 1)).length - 1) = c.val + 1 := by
    intro c; rw [hl1]; omega
  simp only [e1, e2]
  have q1 := exact_sum (htest i) (hte i) post hpost (min kth k) (by rw [hl2]; omega) N (by rw [hmin]; exact hN)
  have q2 := exact_sum_tail (htrain (out i j).1) (hd _) post hpost hp0 (out i j).1 (hd0 _) (min kth k)
    (by rw [hl1]; omega) N' (by rw [hmin]; exact hN')
  rw [q1, q2]
  have m1 : (∑ x ∈ N, post (dTest i x)) / ((min kth k : ℕ) : ℝ) = Spec.meanOver N (fun x => post (dTest i x)) := by
    unfold Spec.meanOver; rw [hN.card, hmin]
  have m2 : (∑ x ∈ N', post (dTrain (out i j).1 x)) / ((min kth k : ℕ) : ℝ) =
      Spec.meanOver N' (fun x => post (dTrain (out i j).1 x)) := by
    unfold Spec.meanOver; rw [hN'.card, hmin]
  rw [m1, m2]
  have hpos := mul_pos hp hp'
  have hne := (Real.sqrt_pos.2 hpos).ne'
  simp only [XR.mul]
  rw [MPPar.sqrt_fin hpos.le]
  simp only [XR.div, hne, if_false]

end HubToolbox.Approx
