import Verif.Knn.TestSet

/-!
# C207: parameter `filter_self` of `score`

"Remove self similarities from sparse `D`. This assumes that the highest similarity per row is the self similarity.
Quadratic dense matrices are always filtered."
-/

set_option autoImplicit false

namespace HubToolbox.Knn
open Spec

variable {K : Type} [Field K] [LinearOrder K] [IsStrictOrderedRing K] {n : ℕ}

/-- `score(D, target, k, metric, test_set_ind, filter_self=filterSelf)`
(`/repo/hub_toolbox/knn_classification.py` lines 25-255): the parameter does not occur in the body. -/
def scoreFilter (srt : ArgSort (XR K)) (o : ArgPart (XR K)) (rnd : Rnd) (D : PyMat (XR K)) (target : PyVec ℤ) (k : KArg)
    (metric : String) (test : Option (List ℕ)) (_filterSelf : Bool) : Py (Σ n, Res K n) :=
  score srt o rnd D target k metric test

/-- **C207, the part which holds (dense).** Self distances are filtered for both values of `filter_self`: points are
classified by their nearest neighbours other than themselves. Missing: see `C207_violated`. -/
theorem C207_dense_partial (srt : ArgSort (XR K)) (o : ArgPart (XR K)) (rnd : Rnd) (D : Fin n → Fin n → XR K)
    (y : Fin n → ℤ) (ks : List ℤ) (hk : ∀ k ∈ ks, 1 ≤ k) (metric : String)
    (hm : metric = "distance" ∨ metric = "similarity") (filterSelf : Bool) :
    ∃ r, scoreFilter srt o rnd (.mat false n n D) (.vec n y) (.list ks) metric none filterSelf = .ok ⟨n, r⟩ ∧
      ∀ j (hj : j < ks.length), ∃ q, r.perK[j]? = some q ∧
        Explained y (List.finRange n) q y
          (fun i => (∃ x, x ≠ i ∧ (D i x).isFinite = true) ∧ ∀ x, x ≠ i → D i x ≠ tooNear metric)
          (fun i => IsKNN metric (D i) (Finset.univ.erase i) (ks[j]).toNat) :=
  C43_dense_loo srt o rnd D y ks hk metric hm

/-- The neighbours found in a sparse row with a strictly largest value at `m`, whatever `m` is. -/
theorem sparse_neighbours_max (o : ArgPart (XR K)) (rnd : Rnd) (D : Fin n → Fin n → XR K)
    (ks : List ℤ) (hk : ∀ k ∈ ks, 1 ≤ k) (i m : Fin n) (hf : ∀ x, (D i x).isFinite = true) (hm : D i m ≠ .fin 0)
    (hmax : ∀ x, x ≠ m → D i x ≠ .fin 0 → D i x < D i m) (hx : ∃ x, x ≠ m ∧ D i x ≠ .fin 0)
    (j : ℕ) (hj : j < ks.length) :
    let N := (nnLists (D i) (rnd.again i.val) ks 0
      (sparseOrder o (D i) ks (rnd.first i.val (storedCols (D i))))).getD j []
    N ≠ [] ∧ IsKNNFirst "similarity" (D i) (Finset.univ.filter (fun x => x ≠ m ∧ D i x ≠ .fin 0)) (ks[j]).toNat N := by
  intro N
  obtain ⟨x, hxi, hx0⟩ := hx
  have hperm := rnd.first_perm i.val (storedCols (D i))
  have hnd : (storedCols (D i)).Nodup := (List.nodup_finRange n).filter _
  have hmem : ∀ z, z ∈ rnd.first i.val (storedCols (D i)) ↔ D i z ≠ .fin 0 := by
    intro z
    rw [hperm.mem_iff]
    simp [storedCols]
  have h := sparseOrder_spec o (D i) ks (rnd.first i.val (storedCols (D i))) (hperm.nodup_iff.2 hnd)
    (fun z _ => hf z) m ((hmem m).2 hm) (fun z hz hzi => hmax z hzi ((hmem z).1 hz)) ks[j]
    (List.getElem_mem hj) (hk _ (List.getElem_mem hj))
  have hL : N = (sparseOrder o (D i) ks (rnd.first i.val (storedCols (D i)))).take (ks[j]).toNat := by
    simp only [N]
    rw [nnLists_all_finite (D i) (rnd.again i.val) (rnd.again_perm i.val) ks 0 _ (fun z _ => hf z) hk]
    simp [hj]
  have h2 : (Finset.univ.filter (fun z => z ∈ rnd.first i.val (storedCols (D i)) ∧ z ≠ m))
      = Finset.univ.filter (fun z => z ≠ m ∧ D i z ≠ .fin 0) := by
    ext z; simp [hmem, and_comm]
  rw [h2, ← hL] at h
  refine ⟨?_, h⟩
  intro hnil
  have hl := h.length
  rw [hnil, List.length_nil] at hl
  have h1 : 1 ≤ (ks[j]).toNat := by have := hk _ (List.getElem_mem hj); omega
  have h3 : 0 < ((Finset.univ.filter (fun z => z ≠ m ∧ D i z ≠ .fin 0)).filter
      (fun z => (D i z).isFinite = true)).card :=
    Finset.card_pos.2 ⟨x, by simp [hxi, hx0, hf]⟩
  omega

/-- **C207, what happens for sparse matrices.** With both values of `filter_self` the most similar object of each row
(`top i`, which may be another object) takes no part in the vote. With `top i = i` this is what `filter_self=True`
promises. -/
theorem C207_sparse_partial (hn : 0 < n) (srt : ArgSort (XR K)) (o : ArgPart (XR K)) (rnd : Rnd) (D : Fin n → Fin n → XR K)
    (y : Fin n → ℤ) (ks : List ℤ) (hk : ∀ k ∈ ks, 1 ≤ k) (top : Fin n → Fin n) (filterSelf : Bool) :
    ∃ r, scoreFilter srt o rnd (.mat true n n D) (.vec n y) (.list ks) "similarity" none filterSelf = .ok ⟨n, r⟩ ∧
      ∀ j (hj : j < ks.length), ∃ q, r.perK[j]? = some q ∧
        Explained y (List.finRange n) q y
          (fun i => (∀ x, (D i x).isFinite = true) ∧ D i (top i) ≠ .fin 0 ∧
            (∀ x, x ≠ top i → D i x ≠ .fin 0 → D i x < D i (top i)) ∧ ∃ x, x ≠ top i ∧ D i x ≠ .fin 0)
          (fun i => IsKNNFirst "similarity" (D i) (Finset.univ.filter (fun x => x ≠ top i ∧ D i x ≠ .fin 0))
            (ks[j]).toNat) := by
  refine ⟨_, score_sparse_ok hn srt o rnd D y ks "similarity" (.inr rfl) none, ?_⟩
  intro j hj
  refine ⟨_, ?_, explained_of y (List.finRange n) _root_.id _ _
    (fun i => (nnLists (D i) (rnd.again i.val) ks 0
      (sparseOrder o (D i) ks (rnd.first i.val (storedCols (D i))))).getD j []) (labelsOf (List.ofFn y)).length
    (List.finRange n).length ?_⟩
  · simp only [List.getElem?_map, List.getElem?_range hj, Option.map_some, Option.getD_none]
    rfl
  · rintro i ⟨hf, hii, hmax, hx⟩
    exact sparse_neighbours_max o rnd D ks hk i (top i) hf hii hmax hx j hj

/-- **C207 does not hold.** Whenever no self similarity is stored for object `i`, its nearest neighbour has its label
and the second nearest another one, `score(..., k=1, filter_self=False)` counts `i` as misclassified: the nearest
neighbour is dropped. -/
theorem C207_violated (srt : ArgSort (XR K)) (o : ArgPart (XR K)) (rnd : Rnd) (D : Fin n → Fin n → XR K)
    (y : Fin n → ℤ) (i a b : Fin n) (hf : ∀ x, (D i x).isFinite = true) (hself : D i i = .fin 0)
    (hb : .fin 0 < D i b) (hab : D i b < D i a) (hrest : ∀ x, x ≠ a → x ≠ b → D i x < D i b)
    (ha : y a = y i) (hbi : y b ≠ y i) :
    i ≠ a ∧ ∃ r q, scoreFilter srt o rnd (.mat true n n D) (.vec n y) (.list [1]) "similarity" none false = .ok ⟨n, r⟩ ∧
      r.perK[0]? = some q ∧ q.corr i = 0 := by
  have hia : i ≠ a := by
    rintro rfl
    rw [hself] at hab
    exact lt_asymm hb hab
  refine ⟨hia, ?_⟩
  obtain ⟨r, hr, hq⟩ := C207_sparse_partial (lt_of_le_of_lt (Nat.zero_le _) i.isLt) srt o rnd D y [1] (by simp)
    (fun _ => a) false
  obtain ⟨q, hq, pred, h1, _, h3⟩ := hq 0 (by simp)
  refine ⟨r, q, hr, hq, ?_⟩
  have hne : b ≠ a := by rintro rfl; exact lt_irrefl _ hab
  have hb0 : D i b ≠ .fin 0 := hb.ne'
  have hok : (∀ x, (D i x).isFinite = true) ∧ D i a ≠ .fin 0 ∧
      (∀ x, x ≠ a → D i x ≠ .fin 0 → D i x < D i a) ∧ ∃ x, x ≠ a ∧ D i x ≠ .fin 0 := by
    refine ⟨hf, (hb.trans hab).ne', ?_, b, hne, hb0⟩
    intro x hx _
    by_cases hxb : x = b
    · rw [hxb]; exact hab
    · exact (hrest x hx hxb).trans hab
  rw [h1 i hok (List.mem_finRange i), if_neg]
  obtain ⟨N, hN0, hN, hv⟩ := h3 i hok
  have hbN : b ∈ N := by
    by_contra hbN
    obtain ⟨x, hx⟩ := List.exists_mem_of_ne_nil N hN0
    have hxc := hN.mem x hx
    rw [Finset.mem_filter] at hxc
    have hxb : x ≠ b := by rintro rfl; exact hbN hx
    have h := hN.nearest x hx b (by simp [hne, hb0]) (hf b) hbN
    have hlt := hrest x hxc.1.2.1 hxb
    have : D i b ≤ D i x := by simpa [Nearer] using h
    exact absurd hlt (not_lt.2 this)
  have hlen : N.length ≤ 1 := by
    rw [hN.length]
    exact min_le_left _ _
  obtain ⟨x, rfl⟩ : ∃ x, N = [x] := List.length_eq_one_iff.1 (le_antisymm hlen (List.length_pos_iff.2 hN0))
  obtain rfl : b = x := by simpa using hbN
  intro hp
  apply hbi
  rw [← hp]
  by_cases hs : ∀ c, ¬ StrictMode ([b].map y) c
  · simpa using hv.2 hs
  · push Not at hs
    obtain ⟨c, hc⟩ := hs
    rw [hv.1 c hc]
    by_contra hcb
    have := hc (y b) hcb
    simp [List.count_singleton, hcb] at this

/-- Three objects without stored self similarities: object 0 is most similar to object 1, which has its label. -/
def exNoSelf : Fin 3 → Fin 3 → XR ℚ :=
  ![![.fin 0, .fin (9 / 10), .fin (1 / 2)], ![.fin (9 / 10), .fin 0, .fin (1 / 4)], ![.fin (1 / 2), .fin (1 / 4), .fin 0]]

example := C207_violated (ArgSort.ofSort _) (ArgPart.ofInsertion _) Rnd.id exNoSelf ![5, 5, 6] 0 1 2 (by decide +kernel)
  (by decide +kernel) (by decide +kernel) (by decide +kernel) (by decide +kernel) (by decide +kernel) (by decide +kernel)

example : corrs (scoreFilter (ArgSort.ofSort _) (ArgPart.ofInsertion _) Rnd.id (.mat true 3 3 exNoSelf) (.vec 3 ![5, 5, 6])
    (.list [1]) "similarity" none false) = [[0, 0, 0]] := by decide +kernel

example : ∀ i : Fin 3, (∀ x, (exNoSelf i x).isFinite = true) ∧ exNoSelf i ((![1, 0, 0] : Fin 3 → Fin 3) i) ≠ .fin 0 ∧
    (∀ x, x ≠ (![1, 0, 0] : Fin 3 → Fin 3) i → exNoSelf i x ≠ .fin 0 →
      exNoSelf i x < exNoSelf i ((![1, 0, 0] : Fin 3 → Fin 3) i)) ∧
    ∃ x, x ≠ (![1, 0, 0] : Fin 3 → Fin 3) i ∧ exNoSelf i x ≠ .fin 0 := by decide +kernel

end HubToolbox.Knn
