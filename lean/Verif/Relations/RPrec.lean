import Verif.Knn.Ranks
import Verif.Relations.Classify

/-!
# R-precision depends on data and classes, not on their representation
-/

set_option autoImplicit false

namespace HubToolbox.Relations

open HubToolbox Spec

variable {K : Type} [Field K] [LinearOrder K] [IsStrictOrderedRing K]

theorem knnFirst_unique {α : Type} [DecidableEq α] {row : α → XR K} {cand : Finset α} {k : ℕ} {N N' : List α}
    (h : IsKNNFirst "similarity" row cand k N) (h' : IsKNNFirst "similarity" row cand k N')
    (hties : ∀ a ∈ cand, ∀ b ∈ cand, row a = row b → a = b) : N.Perm N' := by
  have hl : N.length = N'.length := by rw [h.length, h'.length]
  have hsub : N.toFinset ⊆ N'.toFinset := by
    intro a ha
    by_contra hna
    have hc : N'.toFinset.card ≤ (N.toFinset.erase a).card + 1 := by
      rw [List.toFinset_card_of_nodup h'.nodup, Finset.card_erase_of_mem ha, List.toFinset_card_of_nodup h.nodup]
      omega
    have : ∃ b ∈ N'.toFinset, b ∉ N.toFinset := by
      by_contra hno
      push Not at hno
      have hss : N'.toFinset ⊆ N.toFinset.erase a := by
        intro b hb
        refine Finset.mem_erase.2 ⟨fun hba => hna (hba ▸ hb), hno b hb⟩
      have h1 := Finset.card_le_card hss
      rw [List.toFinset_card_of_nodup h'.nodup, Finset.card_erase_of_mem ha, List.toFinset_card_of_nodup h.nodup] at h1
      have : 0 < N.length := List.length_pos_of_mem (List.mem_toFinset.1 ha)
      omega
    obtain ⟨b, hb, hbn⟩ := this
    rw [List.mem_toFinset] at ha hb hna hbn
    have h1 := h.nearest a ha b (h'.mem b hb).1 (h'.mem b hb).2 hbn
    have h2 := h'.nearest b hb a (h.mem a ha).1 (h.mem a ha).2 hna
    unfold Nearer at h1 h2
    rw [if_neg (by decide)] at h1 h2
    have := hties a (h.mem a ha).1 b (h'.mem b hb).1 (le_antisymm h2 h1)
    exact hbn (this ▸ ha)
  rw [List.perm_ext_iff_of_nodup h.nodup h'.nodup]
  have heq : N.toFinset = N'.toFinset := Finset.eq_of_subset_of_card_le hsub (by
    rw [List.toFinset_card_of_nodup h'.nodup, List.toFinset_card_of_nodup h.nodup, hl])
  intro a
  rw [← List.mem_toFinset, heq, List.mem_toFinset]

/-- Candidates of point `i`: other points with a stored similarity. -/
abbrev stored {n : ℕ} (x : Fin n → Fin n → K) (i : Fin n) : Finset (Fin n) :=
  Finset.univ.filter (fun a => a ≠ i ∧ (.fin (x i a) : XR K) ≠ .fin 0)

theorem knnFirst_map {n : ℕ} {x x' : Fin n → Fin n → K} {σ : Equiv.Perm (Fin n)} {i : Fin n} {k : ℕ} {N : List (Fin n)}
    (h0 : ∀ a, a ≠ i → (x' i a = 0 ↔ x (σ i) (σ a) = 0))
    (hord : ∀ a b, a ≠ i → b ≠ i → x' i a ≠ 0 → x' i b ≠ 0 → (x' i a < x' i b ↔ x (σ i) (σ a) < x (σ i) (σ b)))
    (h : IsKNNFirst "similarity" (fun a => (.fin (x' i a) : XR K)) (stored x' i) k N) :
    IsKNNFirst "similarity" (fun a => (.fin (x (σ i) a) : XR K)) (stored x (σ i)) k (N.map σ) := by
  have hmem : ∀ a, σ a ∈ stored x (σ i) ↔ a ∈ stored x' i := by
    intro a
    simp only [stored, Finset.mem_filter, Finset.mem_univ, true_and, ne_eq, σ.injective.eq_iff, XR.fin.injEq]
    constructor
    · rintro ⟨h1, h2⟩
      exact ⟨h1, fun h3 => h2 ((h0 a h1).1 h3)⟩
    · rintro ⟨h1, h2⟩
      exact ⟨h1, fun h3 => h2 ((h0 a h1).2 h3)⟩
  have hin : ∀ a, a ∈ stored x' i → a ≠ i ∧ x' i a ≠ 0 := by
    intro a ha
    simpa [stored] using ha
  have hnear : ∀ a b, a ∈ stored x' i → b ∈ stored x' i →
      (Nearer "similarity" (.fin (x' i a) : XR K) (.fin (x' i b)) ↔
        Nearer "similarity" (.fin (x (σ i) (σ a)) : XR K) (.fin (x (σ i) (σ b)))) := by
    intro a b ha hb
    unfold Nearer
    rw [if_neg (by decide), if_neg (by decide), XR.fin_le_fin, XR.fin_le_fin, ← not_lt, ← not_lt,
      hord a b (hin a ha).1 (hin b hb).1 (hin a ha).2 (hin b hb).2]
  refine ⟨h.nodup.map σ.injective, ?_, ?_, ?_, ?_⟩
  · intro z hz
    obtain ⟨a, ha, rfl⟩ := List.mem_map.1 hz
    exact ⟨(hmem a).2 (h.mem a ha).1, rfl⟩
  · intro z hz y hy
    obtain ⟨b, hb, rfl⟩ := List.mem_map.1 hy
    rw [List.head?_map] at hz
    obtain ⟨a, ha, rfl⟩ := Option.map_eq_some_iff.1 hz
    exact (hnear a b (h.mem a (List.mem_of_mem_head? ha)).1 (h.mem b hb).1).1 (h.first a ha b hb)
  · intro z hz y hy _ hyn
    obtain ⟨a, ha, rfl⟩ := List.mem_map.1 hz
    obtain ⟨b, rfl⟩ := σ.surjective y
    have hb := (hmem b).1 hy
    refine (hnear a b (h.mem a ha).1 hb).1 (h.nearest a ha b hb rfl (fun hbn => hyn (List.mem_map.2 ⟨b, hbn, rfl⟩)))
  · rw [List.length_map, h.length]
    congr 1
    refine Finset.card_bij (fun a _ => σ a) ?_ (fun _ _ _ _ h => σ.injective h) ?_
    · intro a ha
      exact Finset.mem_filter.2 ⟨(hmem a).2 (Finset.mem_filter.1 ha).1, rfl⟩
    · intro z hz
      obtain ⟨a, rfl⟩ := σ.surjective z
      exact ⟨a, Finset.mem_filter.2 ⟨(hmem a).1 (Finset.mem_filter.1 hz).1, rfl⟩, rfl⟩

theorem relevant_moved {n : ℕ} (y y' : Fin n → ℤ) (σ : Equiv.Perm (Fin n)) (g : ℤ → ℤ) (hg : Function.Injective g)
    (hy : ∀ i, y' i = g (y (σ i))) (i : Fin n) : Knn.relevant y' i = Knn.relevant y (σ i) := by
  rw [Knn.relevant_eq, Knn.relevant_eq]
  refine Finset.card_bij (fun a _ => σ a) ?_ (fun _ _ _ _ h => σ.injective h) ?_
  · intro a ha
    simpa [hy, hg.eq_iff] using ha
  · intro z hz
    obtain ⟨a, rfl⟩ := σ.surjective z
    exact ⟨a, by simpa [hy, hg.eq_iff] using hz, rfl⟩

/-- C254: two calls of `r_precision` whose similarities have the same order in all rows, after renumbering the points by `σ` and
renaming the classes by `g`, give the same R-precision for corresponding points, and the same averages. -/
theorem C254 (o o' : ArgPart (XR K)) (rnd rnd' : Knn.Rnd) {n : ℕ} (x x' : Fin n → Fin n → K) (y y' : Fin n → ℤ) (w w' : ℕ)
    (hp : Knn.HasPair y) (σ : Equiv.Perm (Fin n))
    (hself : ∀ i, x i i ≠ 0 ∧ ∀ a, a ≠ i → x i a ≠ 0 → x i a < x i i)
    (hself' : ∀ i, x' i i ≠ 0 ∧ ∀ a, a ≠ i → x' i a ≠ 0 → x' i a < x' i i)
    (hties : ∀ i a b, a ≠ i → b ≠ i → x i a ≠ 0 → x i b ≠ 0 → x i a = x i b → a = b)
    (h0 : ∀ i a, a ≠ i → (x' i a = 0 ↔ x (σ i) (σ a) = 0))
    (hord : ∀ i a b, a ≠ i → b ≠ i → x' i a ≠ 0 → x' i b ≠ 0 → (x' i a < x' i b ↔ x (σ i) (σ a) < x (σ i) (σ b)))
    (g : ℤ → ℤ) (hg : Function.Injective g) (hy : ∀ i, y' i = g (y (σ i))) :
    ∃ r r', Knn.rPrecision o rnd (.mat true n n (fun i j => .fin (x i j))) (.vec n y) "similarity" w = .ok ⟨n, r⟩ ∧
      Knn.rPrecision o' rnd' (.mat true n n (fun i j => .fin (x' i j))) (.vec n y') "similarity" w' = .ok ⟨n, r'⟩ ∧
      (∀ i, r'.perItem i = r.perItem (σ i)) ∧ (∀ i, r'.relevantItems i = r.relevantItems (σ i)) ∧
      r'.macroAvg = r.macroAvg ∧ r'.weighted = r.weighted := by
  have hp' : Knn.HasPair y' := by
    obtain ⟨i, j, hij, he⟩ := hp
    refine ⟨σ.symm i, σ.symm j, fun h => hij (by simpa using h), ?_⟩
    rw [hy, hy, Equiv.apply_symm_apply, Equiv.apply_symm_apply, he]
  have hw : ((List.finRange n).map (Knn.relevant y)).sum ≠ 0 := fun h => (Knn.wsum_eq_zero y).1 h hp
  have hw' : ((List.finRange n).map (Knn.relevant y')).sum ≠ 0 := fun h => (Knn.wsum_eq_zero y').1 h hp'
  have hr := Knn.rPrecision_eq o rnd (fun i j => (.fin (x i j) : XR K)) y w
  have hr' := Knn.rPrecision_eq o' rnd' (fun i j => (.fin (x' i j) : XR K)) y' w'
  rw [if_neg hw] at hr
  rw [if_neg hw'] at hr'
  have hrel := relevant_moved y y' σ g hg hy
  have hitem : ∀ i, (Knn.rWorker o' rnd' (fun i j => (.fin (x' i j) : XR K)) y' w' i).prec =
      (Knn.rWorker o rnd (fun i j => (.fin (x i j) : XR K)) y w (σ i)).prec := by
    intro i
    unfold Knn.rWorker
    rw [hrel i]
    by_cases hR : Knn.relevant y (σ i) = 0
    · simp only [if_pos hR]
    · have hR1 : 1 ≤ Knn.relevant y (σ i) := Nat.one_le_iff_ne_zero.2 hR
      have hN := Knn.rNeighbours_spec o rnd (fun i j => (.fin (x i j) : XR K)) _ hR1 (σ i) (fun _ => rfl)
        (by simpa using (hself (σ i)).1) (fun a ha hz => XR.fin_lt_fin.2 ((hself (σ i)).2 a ha (by simpa using hz)))
      have hN' := Knn.rNeighbours_spec o' rnd' (fun i j => (.fin (x' i j) : XR K)) _ hR1 i (fun _ => rfl)
        (by simpa using (hself' i).1) (fun a ha hz => XR.fin_lt_fin.2 ((hself' i).2 a ha (by simpa using hz)))
      have hperm := knnFirst_unique hN (knnFirst_map (h0 i) (hord i) hN') (by
        intro a ha b hb hab
        have ha' : a ≠ σ i ∧ x (σ i) a ≠ 0 := by simpa using ha
        have hb' : b ≠ σ i ∧ x (σ i) b ≠ 0 := by simpa using hb
        exact hties (σ i) a b ha'.1 hb'.1 ha'.2 hb'.2 (XR.fin.inj hab))
      have hcount : ((Knn.rNeighbours o' rnd' (fun i j => (.fin (x' i j) : XR K)) (Knn.relevant y (σ i)) i).map y').countP
          (fun v => decide (v = y' i)) =
          ((Knn.rNeighbours o rnd (fun i j => (.fin (x i j) : XR K)) (Knn.relevant y (σ i)) (σ i)).map y).countP
          (fun v => decide (v = y (σ i))) := by
        rw [List.countP_map, List.countP_map, hperm.countP_eq, List.countP_map]
        congr 1
        funext a
        simp only [Function.comp, hy, hg.eq_iff]
      simp only [if_neg hR, hcount]
      split_ifs <;> rfl
  have hperm : ((List.finRange n).map σ).Perm (List.finRange n) :=
    (List.perm_ext_iff_of_nodup ((List.nodup_finRange n).map σ.injective) (List.nodup_finRange n)).2 (fun z => by
      simp only [List.mem_map, List.mem_finRange, true_and, iff_true]
      exact ⟨σ.symm z, by simp⟩)
  have hsum : ∀ {A : Type} [AddCommMonoid A] (f : Fin n → A),
      ((List.finRange n).map (fun i => f (σ i))).sum = ((List.finRange n).map f).sum := by
    intro A _ f
    have := (hperm.map f).sum_eq
    rwa [List.map_map] at this
  refine ⟨_, _, hr, hr', hitem, hrel, ?_, ?_⟩
  · simp only [hitem]
    rw [hsum (fun i => (Knn.rWorker o rnd (fun i j => (.fin (x i j) : XR K)) y w i).prec)]
  · simp only [hitem, hrel]
    rw [hsum (fun i => (Knn.rWorker o rnd (fun i j => (.fin (x i j) : XR K)) y w i).prec * (Knn.relevant y i : K))]
    have hf : Knn.relevant y' = fun i => Knn.relevant y (σ i) := funext hrel
    rw [hf, hsum (Knn.relevant y)]

/-- The hypotheses hold for three points with similarities which get squared while points 0 and 1 are exchanged and the labels
are renamed. -/
example : ∃ (x x' : Fin 3 → Fin 3 → ℚ) (σ : Equiv.Perm (Fin 3)), Knn.HasPair (![5, 6, 5] : Fin 3 → ℤ) ∧
    (∀ i, x i i ≠ 0 ∧ ∀ a, a ≠ i → x i a ≠ 0 → x i a < x i i) ∧
    (∀ i, x' i i ≠ 0 ∧ ∀ a, a ≠ i → x' i a ≠ 0 → x' i a < x' i i) ∧
    (∀ i a b, a ≠ i → b ≠ i → x i a ≠ 0 → x i b ≠ 0 → x i a = x i b → a = b) ∧
    (∀ i a, a ≠ i → (x' i a = 0 ↔ x (σ i) (σ a) = 0)) ∧
    (∀ i a b, a ≠ i → b ≠ i → x' i a ≠ 0 → x' i b ≠ 0 → (x' i a < x' i b ↔ x (σ i) (σ a) < x (σ i) (σ b))) ∧
    Function.Injective (fun v : ℤ => 13 - v) ∧
    (∀ i : Fin 3, (![7, 8, 8] : Fin 3 → ℤ) i = 13 - (![5, 6, 5] : Fin 3 → ℤ) (σ i)) := by
  refine ⟨![![9, 2, 3], ![2, 9, 5], ![3, 5, 9]], ![![81, 4, 25], ![4, 81, 9], ![25, 9, 81]], Equiv.swap 0 1, ⟨0, 2, by decide, by decide⟩,
    by decide +kernel, by decide +kernel, by decide +kernel, by decide +kernel, by decide +kernel, fun a b h => by simpa using h,
    by decide +kernel⟩

end HubToolbox.Relations
