import Verif.HubClass.Neighbours

/-!
# Class `Hubness` on sparse distance matrices, whatever the storage
-/

set_option autoImplicit false

namespace HubToolbox.Spec

/-- The rows store the distances `dist i j` of those pairs for which `present i j` holds, in any order. -/
def StoresDist {K : Type} {n m : ℕ} (present : Fin n → Fin m → Prop) (dist : Fin n → Fin m → XR K) (rows : Fin n → List (Fin m × XR K)) : Prop :=
  ∀ i, ((rows i).map Prod.fst).Nodup ∧ (∀ j, j ∈ (rows i).map Prod.fst ↔ present i j) ∧ ∀ e ∈ rows i, e.2 = dist i e.1

end HubToolbox.Spec

namespace HubToolbox.HubClass

open Spec Hubness

variable {K F : Type} [Field K] [LinearOrder K] [Field F] [LinearOrder F]

theorem sparse_ok (o : ArgPart (XR K)) (rnd : Rnd) (shuffle : Bool) {n m : ℕ} (hn : 0 < n) (k : ℕ) (X : Fin n → List (Fin m × XR K))
    (hk : ∀ i, k ≤ (X i).length) : ∃ L, precomputedSparse o rnd shuffle k X = .ok L := by
  unfold precomputedSparse
  rw [if_neg (by omega)]
  have hrow : ∀ i : Fin n, ∃ r, sparseRow o rnd shuffle i k (X i) = .ok r := by
    intro i
    obtain ⟨σ, h1, -⟩ := rowNN_ok o shuffle (rnd i (X i).length) 0 k (fun p : Fin (X i).length => ((X i).get p).2) (by have := hk i; omega)
    unfold sparseRow
    rw [h1]
    exact ⟨_, rfl⟩
  choose r hr using hrow
  generalize List.finRange n = l
  generalize ([] : List ℕ) = acc
  induction l generalizing acc with
  | nil => exact ⟨acc, rfl⟩
  | cons i l ih =>
    rw [List.foldlM_cons, hr i]
    exact ih (acc ++ r i)

omit [Field K] in
theorem sparse_error (o : ArgPart (XR K)) (rnd : Rnd) (shuffle : Bool) {n m : ℕ} (k : ℕ) (X : Fin n → List (Fin m × XR K)) (i : Fin n)
    (hk : (X i).length < k) : precomputedSparse o rnd shuffle k X = .error .valueError := by
  unfold precomputedSparse
  rw [if_neg (by rintro rfl; exact i.elim0)]
  have hbad : ∀ j : Fin n, (X j).length < k → sparseRow o rnd shuffle j k (X j) = .error .valueError := by
    intro j hj
    unfold sparseRow
    rw [rowNN_error o shuffle _ 0 k _ (by omega)]
    rfl
  have hgood : ∀ j : Fin n, ¬ (X j).length < k → ∃ r, sparseRow o rnd shuffle j k (X j) = .ok r := by
    intro j hj
    obtain ⟨σ, h1, -⟩ := rowNN_ok o shuffle (rnd j (X j).length) 0 k (fun p : Fin (X j).length => ((X j).get p).2) (by omega)
    unfold sparseRow
    rw [h1]
    exact ⟨_, rfl⟩
  have hmem := List.mem_finRange i
  generalize ([] : List ℕ) = acc
  revert hmem
  generalize List.finRange n = l
  intro hmem
  induction l generalizing acc with
  | nil => exact absurd hmem (List.not_mem_nil)
  | cons j l ih =>
    rw [List.foldlM_cons]
    by_cases hj : (X j).length < k
    · rw [hbad j hj]; rfl
    · obtain ⟨r, hr⟩ := hgood j hj
      rw [hr]
      have hi : i ∈ l := by
        rcases List.mem_cons.1 hmem with rfl | h
        · exact absurd hk hj
        · exact h
      exact ih (acc ++ r) hi

/-- **C264**: a sparse distance matrix is accepted exactly if it has a row and every row stores at least `k` distances; the other errors are
`IndexError` (no rows) and `ValueError`. -/
theorem C264_accepted (w : World K) (P : Params F) (k : ℕ) (hP : P.k = some (k : ℤ)) (bs : ℕ) (shuffle hasSelf : Bool) (n m : ℕ)
    (D : Fin n → List (Fin m × XR K)) :
    ((∃ fit, fitTransform w P bs shuffle hasSelf (.sparse n m D false) = .ok fit) ↔ 0 < n ∧ ∀ i, k ≤ (D i).length) ∧
    (n = 0 → fitTransform w P bs shuffle hasSelf (.sparse n m D false) = .error .indexError) ∧
    ∀ i, (D i).length < k → fitTransform w P bs shuffle hasSelf (.sparse n m D false) = .error .valueError := by
  have hrun : fitTransform w P bs shuffle hasSelf (.sparse n m D false)
      = (precomputedSparse w.argpart w.rnd shuffle k D).map (fun l => stats P.hubSize k n m l) := by
    unfold fitTransform
    rw [hP]
    simp only [Int.toNat_natCast, fitLists, Bool.false_eq_true, if_false]
    cases precomputedSparse w.argpart w.rnd shuffle k D <;> rfl
  rw [hrun]
  have h0 : n = 0 → precomputedSparse w.argpart w.rnd shuffle k D = .error .indexError := by
    intro hn
    unfold precomputedSparse
    rw [if_pos hn]
  refine ⟨⟨?_, ?_⟩, ?_, ?_⟩
  · rintro ⟨fit, hf⟩
    refine ⟨Nat.pos_of_ne_zero (fun hn => ?_), fun i => ?_⟩
    · rw [h0 hn] at hf; cases hf
    · by_contra hc
      rw [sparse_error w.argpart w.rnd shuffle k D i (by omega)] at hf
      cases hf
  · rintro ⟨hn, hk⟩
    obtain ⟨L, hL⟩ := sparse_ok w.argpart w.rnd shuffle hn k D hk
    exact ⟨_, by rw [hL]; rfl⟩
  · intro hn
    rw [h0 hn]; rfl
  · intro i hi
    rw [sparse_error w.argpart w.rnd shuffle k D i hi]; rfl

/-- **C264**: the lists contain the `k` nearest of the objects whose distances are stored, nearest first, whatever the storage. -/
theorem C264_lists (w : World K) (P : Params F) (k : ℕ) (hP : P.k = some (k : ℤ)) (bs : ℕ) (shuffle hasSelf : Bool) {n m : ℕ}
    {present : Fin n → Fin m → Prop} {dist : Fin n → Fin m → XR K} {D : Fin n → List (Fin m × XR K)} (hD : StoresDist present dist D) {fit : Fit F}
    (h : fitTransform w P bs shuffle hasSelf (.sparse n m D false) = .ok fit) :
    ∃ cols : Fin n → Fin k → Fin m, fit = stats P.hubSize k n m ((List.finRange n).flatMap (asLists cols)) ∧
      ∀ i, IsKnnAmong (present i) (dist i) k (List.ofFn (cols i)) := by
  unfold fitTransform at h
  rw [hP] at h
  simp only [Int.toNat_natCast, fitLists, Bool.false_eq_true, if_false] at h
  cases hp : precomputedSparse w.argpart w.rnd shuffle k D with
  | error e => rw [hp] at h; cases h
  | ok L =>
    rw [hp] at h
    obtain ⟨pos, hpos, rfl⟩ := sparse_inv _ _ _ _ _ hp
    cases h
    refine ⟨fun i c => ((D i).get (pos i c)).1, by rw [ravel_eq (fun i c => ((D i).get (pos i c)).1)], ?_⟩
    intro i
    have hlen := rowNN_cases _ _ _ _ _ _ (hpos i)
    obtain ⟨σ, h1, h2⟩ := rowNN_ok w.argpart shuffle (w.rnd i (D i).length) 0 k (fun p => ((D i).get p).2) hlen
    have hkn : IsKnnAmong (fun _ => True) (fun p => ((D i).get p).2) k (List.ofFn (pos i)) := by
      rw [Except.ok.inj ((hpos i).symm.trans h1)]
      exact knn_of_positions _ σ hlen h2
    obtain ⟨hnd, hmem, hval⟩ := hD i
    have hinj : ∀ p q : Fin (D i).length, ((D i).get p).1 = ((D i).get q).1 → p = q := by
      intro p q hpq
      have := (List.nodup_iff_injective_get.1 hnd) (a₁ := p.cast (List.length_map _).symm) (a₂ := q.cast (List.length_map _).symm)
        (by simpa using hpq)
      exact Fin.ext (by simpa using congrArg Fin.val this)
    have hv : ∀ p : Fin (D i).length, ((D i).get p).2 = dist i ((D i).get p).1 := fun p => hval _ (List.get_mem _ _)
    have hmap : List.ofFn (fun c => ((D i).get (pos i c)).1) = (List.ofFn (pos i)).map (fun p => ((D i).get p).1) := by
      rw [List.map_ofFn]; rfl
    show IsKnnAmong (present i) (dist i) k (List.ofFn (fun c => ((D i).get (pos i c)).1))
    rw [hmap]
    refine ⟨by rw [List.length_map]; exact hkn.length, hkn.distinct.map hinj, ?_, ?_, ?_⟩
    · intro a ha
      obtain ⟨p, -, rfl⟩ := List.mem_map.1 ha
      exact (hmem _).1 (List.mem_map.2 ⟨_, List.get_mem _ _, rfl⟩)
    · rw [List.pairwise_map]
      refine hkn.sorted.imp (fun {p q} hpq => ?_)
      have e : ((D i).get p).2 ≤ ((D i).get q).2 := hpq
      rwa [hv, hv] at e
    · intro a ha b hb hbL
      obtain ⟨p, hpL, rfl⟩ := List.mem_map.1 ha
      obtain ⟨e, he, rfl⟩ := List.mem_map.1 ((hmem b).2 hb)
      obtain ⟨q, rfl⟩ := List.get_of_mem he
      have e2 : ((D i).get p).2 ≤ ((D i).get q).2 :=
        hkn.best p hpL q trivial (fun hq => hbL (List.mem_map.2 ⟨q, hq, rfl⟩))
      rwa [hv, hv] at e2

/-- **C264**: the order in which distances are stored, shuffling and the implementation of the partial sort do not matter, if no two stored distances
of a row are equal. -/
theorem C264_storage (w w' : World K) (P : Params F) (k : ℕ) (hP : P.k = some (k : ℤ)) (bs bs' : ℕ) (shuffle shuffle' hasSelf hasSelf' : Bool) {n m : ℕ}
    {present : Fin n → Fin m → Prop} {dist : Fin n → Fin m → XR K} {D D' : Fin n → List (Fin m × XR K)} (hD : StoresDist present dist D)
    (hD' : StoresDist present dist D') (hties : ∀ i a b, present i a → present i b → dist i a = dist i b → a = b) :
    fitTransform w P bs shuffle hasSelf (.sparse n m D false) = fitTransform w' P bs' shuffle' hasSelf' (.sparse n m D' false) := by
  have hlen : ∀ i, (D i).length = (D' i).length := by
    intro i
    rw [← List.length_map (f := Prod.fst), ← List.length_map (f := Prod.fst) (as := D' i), ← List.toFinset_card_of_nodup (hD i).1,
      ← List.toFinset_card_of_nodup (hD' i).1]
    congr 1
    ext j
    rw [List.mem_toFinset, List.mem_toFinset, (hD i).2.1, (hD' i).2.1]
  obtain ⟨a1, a2, a3⟩ := C264_accepted w P k hP bs shuffle hasSelf n m D
  obtain ⟨b1, b2, b3⟩ := C264_accepted w' P k hP bs' shuffle' hasSelf' n m D'
  by_cases hok : 0 < n ∧ ∀ i, k ≤ (D i).length
  · obtain ⟨f, hf⟩ := a1.2 hok
    obtain ⟨f', hf'⟩ := b1.2 ⟨hok.1, fun i => by rw [← hlen]; exact hok.2 i⟩
    obtain ⟨c, hc, hk1⟩ := C264_lists w P k hP bs shuffle hasSelf hD hf
    obtain ⟨c', hc', hk2⟩ := C264_lists w' P k hP bs' shuffle' hasSelf' hD' hf'
    have hcc : c = c' := by
      funext i
      exact List.ofFn_injective ((hk1 i).unique (hk2 i) (hties i))
    rw [hf, hf', hc, hc', hcc]
  · by_cases hn : n = 0
    · rw [a2 hn, b2 hn]
    · obtain ⟨i, hi⟩ : ∃ i, (D i).length < k := by
        by_contra hc
        push Not at hc
        exact hok ⟨Nat.pos_of_ne_zero hn, hc⟩
      rw [a3 i hi, b3 i (by rw [← hlen]; exact hi)]

/-- **C264**: a sparse matrix which stores the distances to all other objects gives the result of the dense matrix with `has_self_distances=True`. -/
theorem C264_dense (w w' : World K) (P : Params F) (k : ℕ) (hP : P.k = some (k : ℤ)) (bs bs' : ℕ) (shuffle shuffle' hasSelf : Bool) {n : ℕ}
    (d : Fin n → Fin n → K) (hk : k + 1 ≤ n) (hself : ∀ i j, j ≠ i → d i i < d i j) (hties : ∀ i a b, a ≠ i → b ≠ i → d i a = d i b → a = b)
    {D : Fin n → List (Fin n × XR K)} (hD : StoresDist (fun i j => j ≠ i) (fun i j => .fin (d i j)) D) :
    fitTransform w P bs shuffle hasSelf (.sparse n n D false) = fitTransform w' P bs' shuffle' true (.dense n n (fun i j => .fin (d i j)) false) := by
  obtain ⟨rows, h1, h2⟩ := dense_self w' P k hP bs' shuffle' n (fun i j => XR.fin (d i j)) hk
    (fun i j hj => by simpa [farness] using hself i j hj)
  have hlen : ∀ i, (D i).length = n - 1 := by
    intro i
    rw [← List.length_map (f := Prod.fst), ← List.toFinset_card_of_nodup (hD i).1]
    have : ((D i).map Prod.fst).toFinset = Finset.univ.erase i := by
      ext j
      rw [List.mem_toFinset, (hD i).2.1]
      simp
    rw [this, Finset.card_erase_of_mem (Finset.mem_univ _), Finset.card_univ, Fintype.card_fin]
  obtain ⟨f, hf⟩ := (C264_accepted w P k hP bs shuffle hasSelf n n D).1.2 ⟨by omega, fun i => by rw [hlen]; omega⟩
  obtain ⟨c, hc, hk1⟩ := C264_lists w P k hP bs shuffle hasSelf hD hf
  have hcc : c = rows := by
    funext i
    refine List.ofFn_injective ((hk1 i).unique ?_ ?_)
    · have := h2 i
      simpa [farness] using this
    · intro a b ha hb hab
      exact hties i a b ha hb (XR.fin.inj hab)
  rw [hf, h1, hc, hcc]

/-! ### Non-vacuity -/

/-- Distances of three points on a line, stored in two ways. -/
def exStored : Fin 3 → List (Fin 3 × XR ℚ) := ![[(1, .fin 1), (2, .fin 3)], [(0, .fin 1), (2, .fin 2)], [(0, .fin 3), (1, .fin 2)]]

/-- The same in another order. -/
def exStored' : Fin 3 → List (Fin 3 × XR ℚ) := ![[(2, .fin 3), (1, .fin 1)], [(0, .fin 1), (2, .fin 2)], [(1, .fin 2), (0, .fin 3)]]

/-- The distances. -/
def exLine : Fin 3 → Fin 3 → ℚ := ![![0, 1, 3], ![1, 0, 2], ![3, 2, 0]]

example : StoresDist (fun i j => j ≠ i) (fun i j => .fin (exLine i j)) exStored ∧ StoresDist (fun i j => j ≠ i) (fun i j => .fin (exLine i j)) exStored' ∧
    (∀ i j, j ≠ i → exLine i i < exLine i j) ∧ ∀ i a b, a ≠ i → b ≠ i → exLine i a = exLine i b → a = b := by
  refine ⟨by unfold StoresDist; decide +kernel, by unfold StoresDist; decide +kernel, by decide +kernel, by decide +kernel⟩

end HubToolbox.HubClass
