import Verif.MPEmp.SparseLemmas

/-!
# Properties C20–C25, C51, C52 of empirical Mutual Proximity
-/

set_option autoImplicit false

set_option linter.unusedSectionVars false

namespace HubToolbox.MPEmp
open Spec

variable {K : Type} [Field K] [LinearOrder K] [IsStrictOrderedRing K]

/-- Order in which the workers of the sparse variant store their results. -/
abbrev Order (K : Type) := ∀ n, (Fin n → Fin n → K) → List (Fin n × Fin n)

/-- **C20 (when calls succeed).** Dense square arrays with a valid metric are accepted unless a boolean test mask
selects a point (or an index array contains -1); the result is a dense matrix of the same shape. -/
theorem C20_full_succeeds_iff (order : Order K) {n : ℕ} (D : Fin n → Fin n → XR K) (sp : Bool)
    (metric : String) (test : Option TestArg) (minNnz : ℤ) :
    (∃ R, full order (.obj (.mat sp n n D)) metric test minNnz = .ok R) ↔
      (metric = "distance" ∨ metric = "similarity") ∧
      (∀ b, test = some (.mask b) → ∀ x ∈ b, x = false) ∧
      (∀ l, test = some (.index l) → (-1 : ℤ) ∉ l) := by
  have hf : full order (.obj (.mat sp n n D)) metric test minNnz
      = (do fullChecks false metric test; pure (.dense n (fullDense metric D))) := by
    simp [full]
  rw [hf]
  unfold fullChecks
  by_cases hm : metric = "distance" ∨ metric = "similarity"
  · have hmv : checkValidMetric metric = .ok () := by rcases hm with rfl | rfl <;> rfl
    rw [hmv]
    simp only [hm, true_and]
    cases test with
    | none => simp
    | some t =>
      cases t with
      | mask b =>
        cases hb : (TestArg.mask b).notAllInverted
        · simp only [hb, Bool.false_eq_true, and_false, if_false]
          constructor
          · intro _
            simp [TestArg.notAllInverted] at hb
            simpa using hb
          · intro _; exact ⟨_, rfl⟩
        · simp only [hb, Bool.false_eq_true, and_false, if_false, if_true]
          constructor
          · rintro ⟨R, hR⟩; cases hR
          · intro hcon
            simp [TestArg.notAllInverted] at hb
            simp at hcon
            exact absurd hb hcon
      | index l =>
        cases hb : (TestArg.index l).notAllInverted
        · simp only [hb, Bool.false_eq_true, and_false, if_false]
          constructor
          · intro _
            simp [TestArg.notAllInverted] at hb
            simp only [reduceCtorEq, Option.some.injEq, IsEmpty.forall_iff, implies_true, true_and,
              TestArg.index.injEq]
            rintro _ rfl hc
            exact hb _ hc rfl
          · intro _; exact ⟨_, rfl⟩
        · simp only [hb, Bool.false_eq_true, and_false, if_false, if_true]
          constructor
          · rintro ⟨R, hR⟩; cases hR
          · intro hcon
            simp [TestArg.notAllInverted] at hb
            exact absurd hb (hcon.2 l rfl)
  · have hmv : checkValidMetric metric = .error .valueError := by
      unfold checkValidMetric; rw [if_pos (by tauto)]
    rw [hmv]
    simp only [hm, false_and, iff_false]
    rintro ⟨R, hR⟩
    cases hR

theorem full_dense_inv {order : Order K} {n : ℕ} {D : Fin n → Fin n → XR K} {sp : Bool}
    {metric : String} {test : Option TestArg} {minNnz : ℤ} {M : Fin n → Fin n → K}
    (h : full order (.obj (.mat sp n n D)) metric test minNnz = .ok (.dense n M)) :
    (metric = "distance" ∨ metric = "similarity") ∧ M = fullDense metric D := by
  refine ⟨((C20_full_succeeds_iff order D sp metric test minNnz).1 ⟨_, h⟩).1, ?_⟩
  have hf : full order (.obj (.mat sp n n D)) metric test minNnz
      = (do fullChecks false metric test; pure (.dense n (fullDense metric D))) := by
    simp [full]
  rw [hf] at h
  cases hc : fullChecks false metric test with
  | error e => rw [hc] at h; cases h
  | ok u =>
    rw [hc] at h
    have h2 : (Result.dense n (fullDense metric D)) = Result.dense n M := Except.ok.inj h
    injection h2 with _ h3
    exact h3.symm

theorem card_le_sub_two {n : ℕ} {i j : Fin n} (hij : i ≠ j) (s : Finset (Fin n)) (hi : i ∉ s)
    (hj : j ∉ s) : s.card + 2 ≤ n := by
  have h1 : (insert i (insert j s)).card = s.card + 2 := by
    rw [Finset.card_insert_of_notMem, Finset.card_insert_of_notMem hj]
    simp [hij, hi]
  rw [← h1]
  exact (Finset.card_le_univ _).trans (by simp)

/-- **C20.** The result is symmetric, has values in `[0,1]` and the right self value. -/
theorem C20_valid_secondary_distance (order : Order K) {n : ℕ} (D : Fin n → Fin n → XR K) (sp : Bool)
    (metric : String) (test : Option TestArg) (minNnz : ℤ) (M : Fin n → Fin n → K)
    (h : full order (.obj (.mat sp n n D)) metric test minNnz = .ok (.dense n M)) :
    Symmetric M ∧ (∀ i j, 0 ≤ M i j ∧ M i j ≤ 1) ∧
    (∀ i, M i i = if metric = "similarity" then 1 else 0) := by
  obtain ⟨-, rfl⟩ := full_dense_inv h
  refine ⟨fullDense_symm metric D, ?_, ?_⟩
  · intro i j
    rw [fullDense_apply]
    split
    · unfold selfValue; split <;> simp
    · split <;> exact entry_mem_unit _ _ _ _
  · intro i; rw [fullDense_apply]; simp [selfValue]

/-- **C20 (a point is strictly closest to itself).** Off-diagonal distances are at least `2/n`; off-diagonal
similarities are at most `(n-2)/n` unless the matrix contains `+inf`. -/
theorem C20_off_diagonal_bound (order : Order K) {n : ℕ} (D : Fin n → Fin n → XR K) (sp : Bool)
    (metric : String) (test : Option TestArg) (minNnz : ℤ) (M : Fin n → Fin n → K)
    (h : full order (.obj (.mat sp n n D)) metric test minNnz = .ok (.dense n M)) (i j : Fin n)
    (hij : i ≠ j) :
    (metric = "distance" → 2 / (n : K) ≤ M i j) ∧
    (metric = "similarity" → D i j ≠ .pinf → D j i ≠ .pinf → M i j ≤ ((n : K) - 2) / n) := by
  obtain ⟨-, rfl⟩ := full_dense_inv h
  have hn : 0 < n := Nat.pos_of_ne_zero (by rintro rfl; exact i.elim0)
  have hnK : (0 : K) < n := by exact_mod_cast hn
  -- it suffices to treat one order of the arguments
  have main : ∀ a b : Fin n, a ≠ b →
      (2 / (n : K) ≤ entry "distance" (Np.fillDiagonal D (excludeValue "distance") a)
        (Np.fillDiagonal D (excludeValue "distance") b) (D b a)) ∧
      (D b a ≠ .pinf → entry "similarity" (Np.fillDiagonal D (excludeValue "similarity") a)
        (Np.fillDiagonal D (excludeValue "similarity") b) (D b a) ≤ ((n : K) - 2) / n) := by
    intro a b hab
    constructor
    · rw [entry_distance]
      set s := Finset.univ.filter (fun x => XR.flt (D b a)
        (Np.fillDiagonal D (excludeValue "distance") a x) ∧ XR.flt (D b a)
        (Np.fillDiagonal D (excludeValue "distance") b x)) with hs
      have hca := card_le_sub_two hab s
        (by simp [hs, Np.fillDiagonal, excludeValue, not_flt_ninf])
        (by simp [hs, Np.fillDiagonal, excludeValue, not_flt_ninf])
      have hca' : (s.card : K) + 2 ≤ n := by exact_mod_cast hca
      rw [div_le_iff₀ hnK, sub_mul, div_mul_cancel₀ _ hnK.ne']
      linarith
    · intro hp
      rw [entry_similarity]
      set s := Finset.univ.filter (fun x => XR.fle
        (Np.fillDiagonal D (excludeValue "similarity") a x) (D b a) ∧ XR.fle
        (Np.fillDiagonal D (excludeValue "similarity") b x) (D b a)) with hs
      have hca := card_le_sub_two hab s
        (by simp [hs, Np.fillDiagonal, excludeValue, not_fle_pinf hp])
        (by simp [hs, Np.fillDiagonal, excludeValue, not_fle_pinf hp])
      have hca' : (s.card : K) + 2 ≤ n := by exact_mod_cast hca
      rw [div_le_div_iff_of_pos_right hnK]
      linarith
  rw [fullDense_apply, if_neg hij]
  constructor
  · rintro rfl
    split
    · exact (main i j hij).1
    · exact (main j i hij.symm).1
  · rintro rfl h1 h2
    split
    · exact (main i j hij).2 h2
    · exact (main j i hij.symm).2 h1

/-- **C21.** On symmetric matrices the function computes Mutual Proximity as defined in the literature
(distance mode for all floats, similarity mode as long as no similarity is `+inf`). -/
theorem C21_computes_definition (order : Order K) {n : ℕ} (D : Fin n → Fin n → XR K) (sp : Bool)
    (metric : String) (test : Option TestArg) (minNnz : ℤ) (M : Fin n → Fin n → K)
    (h : full order (.obj (.mat sp n n D)) metric test minNnz = .ok (.dense n M))
    (hsym : Symmetric D) (i j : Fin n) :
    (metric = "distance" → M i j = mpDistance D i j) ∧
    (metric = "similarity" → D i j ≠ .pinf → M i j = mpSimilarity D i j) := by
  obtain ⟨-, rfl⟩ := full_dense_inv h
  have main : ∀ a b : Fin n, a ≠ b →
      (entry "distance" (Np.fillDiagonal D (excludeValue "distance") a)
        (Np.fillDiagonal D (excludeValue "distance") b) (D b a) = mpDistance D a b) ∧
      (D b a ≠ .pinf → entry "similarity" (Np.fillDiagonal D (excludeValue "similarity") a)
        (Np.fillDiagonal D (excludeValue "similarity") b) (D b a) = mpSimilarity D a b) := by
    intro a b hab
    constructor
    · rw [entry_distance, mpDistance, if_neg hab, farther]
      congr 4
      ext x
      simp only [Finset.mem_filter, Finset.mem_univ, true_and, Np.fillDiagonal, excludeValue,
        Fin.val_inj]
      rw [hsym b a]
      by_cases h1 : a = x
      · simp [h1, not_flt_ninf]
      · by_cases h2 : b = x
        · simp [h2, not_flt_ninf]
        · simp [h1, h2, Ne.symm h1, Ne.symm h2]
    · intro hp
      rw [entry_similarity, mpSimilarity, if_neg hab, lessSimilar]
      congr 3
      ext x
      rw [hsym b a] at hp ⊢
      simp only [Finset.mem_filter, Finset.mem_univ, true_and, Np.fillDiagonal, excludeValue,
        Fin.val_inj]
      by_cases h1 : a = x
      · simp [h1] at hp ⊢
        simp [not_fle_pinf hp]
      · by_cases h2 : b = x
        · simp [h2] at hp ⊢
          simp [not_fle_pinf hp]
        · simp [h1, h2, Ne.symm h1, Ne.symm h2]
  rw [fullDense_apply]
  by_cases hij : i = j
  · subst hij
    simp only [if_true]
    constructor
    · rintro rfl; simp [mpDistance, selfValue]
    · rintro rfl -; simp [mpSimilarity, selfValue]
  · rw [if_neg hij]
    -- the definition is symmetric in its arguments
    have hsd : mpDistance D j i = mpDistance D i j := by
      unfold mpDistance farther
      rw [if_neg hij, if_neg (Ne.symm hij), hsym j i]
      congr 4
      ext x
      simp only [Finset.mem_filter, Finset.mem_univ, true_and]
      tauto
    have hss : mpSimilarity D j i = mpSimilarity D i j := by
      unfold mpSimilarity lessSimilar
      rw [if_neg hij, if_neg (Ne.symm hij), hsym j i]
      congr 3
      ext x
      simp only [Finset.mem_filter, Finset.mem_univ, true_and]
      tauto
    constructor
    · rintro rfl
      split
      · exact (main i j hij).1
      · rw [(main j i (Ne.symm hij)).1, hsd]
    · rintro rfl hp
      split
      · exact (main i j hij).2 (by rwa [hsym j i])
      · rw [(main j i (Ne.symm hij)).2 hp, hss]

theorem flt_map {f : K → K} (hf : StrictMono f) (a b : XR K) :
    XR.flt (a.map f) (b.map f) ↔ XR.flt a b := by
  cases a <;> cases b <;> simp [XR.flt, XR.map, hf.lt_iff_lt]

theorem fle_map {f : K → K} (hf : StrictMono f) (a b : XR K) :
    XR.fle (a.map f) (b.map f) ↔ XR.fle a b := by
  cases a <;> cases b <;> simp [XR.fle, XR.map, hf.le_iff_le]

/-- **C22 (ranks only).** Strictly increasing transformations of the finite entries leave the result unchanged, for
every square matrix. -/
theorem C22_order_only (order order' : Order K) {n : ℕ} (D : Fin n → Fin n → XR K) (sp sp' : Bool)
    (metric : String) (test test' : Option TestArg) (minNnz minNnz' : ℤ) (M M' : Fin n → Fin n → K)
    (f : K → K) (hf : StrictMono f)
    (h : full order (.obj (.mat sp n n D)) metric test minNnz = .ok (.dense n M))
    (h' : full order' (.obj (.mat sp' n n (fun i j => (D i j).map f))) metric test' minNnz'
      = .ok (.dense n M')) : M = M' := by
  obtain ⟨hm, rfl⟩ := full_dense_inv h
  obtain ⟨-, rfl⟩ := full_dense_inv h'
  have hex : (excludeValue metric : XR K).map f = excludeValue metric := by
    unfold excludeValue; split <;> rfl
  have hfd : ∀ a x, Np.fillDiagonal (fun i j => (D i j).map f) (excludeValue metric) a x
      = (Np.fillDiagonal D (excludeValue metric) a x).map f := by
    intro a x; unfold Np.fillDiagonal; split
    · exact hex.symm
    · rfl
  have hent : ∀ a b d, entry metric (Np.fillDiagonal (fun i j => (D i j).map f) (excludeValue metric) a)
      (Np.fillDiagonal (fun i j => (D i j).map f) (excludeValue metric) b) (XR.map f d)
      = entry metric (Np.fillDiagonal D (excludeValue metric) a)
        (Np.fillDiagonal D (excludeValue metric) b) d := by
    intro a b d
    unfold entry
    simp only [hfd, flt_map hf, fle_map hf]
  funext i j
  rw [fullDense_apply, fullDense_apply]
  simp only [hent]

/-- **C22 (point order).** Permuting the points of a symmetric matrix permutes the result. -/
theorem C22_relabelling (order order' : Order K) {n : ℕ} (D : Fin n → Fin n → XR K) (sp sp' : Bool)
    (metric : String) (test test' : Option TestArg) (minNnz minNnz' : ℤ) (M M' : Fin n → Fin n → K)
    (π : Equiv.Perm (Fin n)) (hsym : Symmetric D)
    (h : full order (.obj (.mat sp n n D)) metric test minNnz = .ok (.dense n M))
    (h' : full order' (.obj (.mat sp' n n (fun i j => D (π i) (π j)))) metric test' minNnz'
      = .ok (.dense n M')) (i j : Fin n) : M' i j = M (π i) (π j) := by
  obtain ⟨hm, rfl⟩ := full_dense_inv h
  obtain ⟨-, rfl⟩ := full_dense_inv h'
  have hfd : ∀ a x, Np.fillDiagonal (fun i j => D (π i) (π j)) (excludeValue metric) a x
      = Np.fillDiagonal D (excludeValue metric) (π a) (π x) := by
    intro a x; unfold Np.fillDiagonal; simp only [Fin.val_inj, π.injective.eq_iff]
  have hcount : ∀ p : Fin n → Bool, Np.countTrue (fun x => p (π x)) = Np.countTrue p := by
    intro p
    rw [Np.countTrue_eq_card, Np.countTrue_eq_card]
    refine Finset.card_bij (fun x _ => π x) ?_ ?_ ?_
    · intro x hx; simpa using hx
    · intro a _ b _ hab; exact π.injective hab
    · intro b hb; exact ⟨π.symm b, by simpa using hb, by simp⟩
  have hent : ∀ a b d, entry metric (Np.fillDiagonal (fun i j => D (π i) (π j)) (excludeValue metric) a)
      (Np.fillDiagonal (fun i j => D (π i) (π j)) (excludeValue metric) b) d
      = entry metric (Np.fillDiagonal D (excludeValue metric) (π a))
        (Np.fillDiagonal D (excludeValue metric) (π b)) d := by
    intro a b d
    unfold entry
    simp only [hfd]
    rw [hcount (fun x => decide (XR.fle (Np.fillDiagonal D (excludeValue metric) (π a) x) d) &&
        decide (XR.fle (Np.fillDiagonal D (excludeValue metric) (π b) x) d)),
      hcount (fun x => decide (XR.flt d (Np.fillDiagonal D (excludeValue metric) (π a) x)) &&
        decide (XR.flt d (Np.fillDiagonal D (excludeValue metric) (π b) x)))]
  have hcomm : ∀ (u v : Fin n → XR K) d, entry metric u v d = entry metric v u d := by
    intro u v d
    unfold entry
    simp only [Bool.and_comm]
  rw [fullDense_apply, fullDense_apply]
  simp only [hent, π.injective.eq_iff]
  by_cases hij : i = j
  · simp [hij]
  · rw [if_neg hij, if_neg hij]
    have hne : π i ≠ π j := fun hc => hij (π.injective hc)
    rcases lt_or_gt_of_ne hij with h1 | h1 <;> rcases lt_or_gt_of_ne hne with h2 | h2
    · simp [h1, h2]
    · rw [if_pos h1, if_neg (not_lt.2 h2.le), hcomm, hsym (π j) (π i)]
    · rw [if_neg (not_lt.2 h1.le), if_pos h2, hcomm, hsym (π j) (π i)]
    · simp [h1.not_gt, h2.not_gt]

/-- **C23.** Distance mode on `D` and similarity mode on `-D` are dual: off the diagonal
`MP_dist(D) ≥ 1 - MP_sim(-D)`, with equality if no other point is exactly as far from `i` or `j` as they are from
each other. -/
theorem C23_duality (order order' : Order K) {n : ℕ} (D : Fin n → Fin n → XR K) (sp sp' : Bool)
    (test test' : Option TestArg) (minNnz minNnz' : ℤ) (M M' : Fin n → Fin n → K)
    (h : full order (.obj (.mat sp n n D)) "distance" test minNnz = .ok (.dense n M))
    (h' : full order' (.obj (.mat sp' n n (fun i j => (D i j).neg))) "similarity" test' minNnz'
      = .ok (.dense n M')) (hsym : Symmetric D) (i j : Fin n) (hij : i ≠ j)
    (hfin : ∀ a b, (D a b).isFinite = true) :
    1 - M' i j ≤ M i j ∧
    ((∀ x, x ≠ i → x ≠ j → D i x ≠ D i j ∧ D j x ≠ D i j) → M i j = 1 - M' i j) := by
  have hn : 0 < n := Nat.pos_of_ne_zero (by rintro rfl; exact i.elim0)
  have hnK : (0 : K) < n := by exact_mod_cast hn
  have hsym' : Symmetric (fun i j => (D i j).neg) := fun a b => by simp only [hsym a b]
  have e1 := (C21_computes_definition order D sp _ test minNnz M h hsym i j).1 rfl
  have hnp : (D i j).neg ≠ .pinf := by
    obtain ⟨v, hv⟩ := XR.isFinite_iff.1 (hfin i j); simp [hv, XR.neg]
  have e2 := (C21_computes_definition order' _ sp' _ test' minNnz' M' h' hsym' i j).2 rfl hnp
  rw [e1, e2, mpDistance, mpSimilarity, if_neg hij, if_neg hij]
  have hsub : farther D i j ⊆ lessSimilar (fun i j => (D i j).neg) i j := by
    intro x hx
    simp only [farther, lessSimilar, Finset.mem_filter, Finset.mem_univ, true_and] at hx ⊢
    obtain ⟨a, ha⟩ := XR.isFinite_iff.1 (hfin i j)
    obtain ⟨b, hb⟩ := XR.isFinite_iff.1 (hfin i x)
    obtain ⟨c, hc⟩ := XR.isFinite_iff.1 (hfin j x)
    simp only [ha, hb, hc, XR.flt, XR.fle, XR.neg] at hx ⊢
    refine ⟨hx.1, hx.2.1, ?_, ?_⟩ <;> linarith [hx.2.2.1, hx.2.2.2]
  constructor
  · have := Finset.card_le_card hsub
    have hK : ((farther D i j).card : K) ≤ ((lessSimilar (fun i j => (D i j).neg) i j).card : K) := by
      exact_mod_cast this
    have := div_le_div_of_nonneg_right hK hnK.le
    linarith
  · intro hnt
    have : lessSimilar (fun i j => (D i j).neg) i j = farther D i j := by
      apply Finset.Subset.antisymm _ hsub
      intro x hx
      simp only [farther, lessSimilar, Finset.mem_filter, Finset.mem_univ, true_and] at hx ⊢
      obtain ⟨a, ha⟩ := XR.isFinite_iff.1 (hfin i j)
      obtain ⟨b, hb⟩ := XR.isFinite_iff.1 (hfin i x)
      obtain ⟨c, hc⟩ := XR.isFinite_iff.1 (hfin j x)
      have hne := hnt x hx.1 hx.2.1
      simp only [ha, hb, hc, XR.flt, XR.fle, XR.neg, ne_eq, XR.fin.injEq] at hx hne ⊢
      refine ⟨hx.1, hx.2.1, lt_of_le_of_ne ?_ (Ne.symm hne.1), lt_of_le_of_ne ?_ (Ne.symm hne.2)⟩
      · linarith [hx.2.2.1]
      · linarith [hx.2.2.2]
    rw [this]

/-! ## Sampled variant -/

theorem wrapAll_val {n s : ℕ} (idx : Fin s → Fin n) :
    Np.wrapAll n (fun j => ((idx j).val : ℤ)) = some idx := by
  have hw : ∀ c : Fin s, Np.wrap n ((idx c).val : ℤ) = some (idx c) := by
    intro c
    rw [Np.wrap_of_nonneg (by positivity) (by exact_mod_cast (idx c).isLt)]
    simp
  simp [Np.wrapAll, hw]

theorem sample_none {n s : ℕ} (D : Fin n → Fin s → XR K) (idx : Fin s → Fin n) (metric : String)
    (hm : metric = "distance" ∨ metric = "similarity") (hs : s ≤ n) :
    sample (.mat false n s D) (fun j => ((idx j).val : ℤ)) metric none
      = .ok (.sampled n s (sampleCore metric D idx (List.finRange n))) := by
  have hm' : ¬ (metric ≠ "distance" ∧ metric ≠ "similarity") := by tauto
  simp [sample, wrapAll_val, hm', Nat.not_lt.2 hs]

theorem sample_some {n s t : ℕ} (D : Fin n → Fin s → XR K) (idx : Fin s → Fin n) (tidx : Fin t → Fin n)
    (metric : String) (hm : metric = "distance" ∨ metric = "similarity") (hs : s ≤ n) :
    sample (.mat false n s D) (fun j => ((idx j).val : ℤ)) metric (some ⟨t, fun r => ((tidx r).val : ℤ)⟩)
      = .ok (.sampled t s (fun r => sampleCore metric D idx (List.ofFn tidx) (tidx r))) := by
  have hm' : ¬ (metric ≠ "distance" ∧ metric ≠ "similarity") := by tauto
  simp [sample, wrapAll_val, hm', Nat.not_lt.2 hs]

/-- **C24 (true samples).** With `s` sampled columns belonging to the points `idx`, the call succeeds and the result
is the Mutual Proximity of point `i` and point `idx j`, estimated on the sample; self entries are fixed. -/
theorem C24_sample_values {n s : ℕ} (D : Fin n → Fin s → XR K) (idx : Fin s → Fin n) (hs : s ≤ n)
    (metric : String) (hm : metric = "distance" ∨ metric = "similarity") :
    ∃ M : Fin n → Fin s → XR K,
      sample (.mat false n s D) (fun j => ((idx j).val : ℤ)) metric none = .ok (.sampled n s M) ∧
      (∀ i j, idx j = i → M i j = .fin (if metric = "similarity" then 1 else 0)) ∧
      (∀ i j, idx j ≠ i → metric = "distance" →
        M i j = .fin (1 - ((fartherS D idx i j).card : K) / s)) ∧
      (∀ i j, idx j ≠ i → metric = "similarity" → D i j ≠ .pinf →
        M i j = .fin (((lessSimilarS D idx i j).card : K) / s)) := by
  refine ⟨_, sample_none D idx metric hm hs, ?_, ?_, ?_⟩
  · rintro i j rfl
    rw [sampleCore_apply, if_pos rfl]
    rfl
  · rintro i j hij rfl
    rw [sampleCore_apply, if_neg (Ne.symm hij), if_pos (List.mem_finRange i), entry_distance, fartherS]
    congr 4
    refine congrArg Finset.card (Finset.filter_congr (fun x _ => ?_))
    simp only [excl, excludeValue]
    by_cases h1 : i = idx x
    · simp [← h1, not_flt_ninf]
    · by_cases h2 : idx j = idx x
      · simp [h2, not_flt_ninf]
      · simp [h1, h2, Ne.symm h1, Ne.symm h2]
  · rintro i j hij rfl hp
    rw [sampleCore_apply, if_neg (Ne.symm hij), if_pos (List.mem_finRange i), entry_similarity, lessSimilarS]
    congr 3
    refine congrArg Finset.card (Finset.filter_congr (fun x _ => ?_))
    simp only [excl, excludeValue]
    by_cases h1 : i = idx x
    · simp [← h1, not_fle_pinf hp]
    · by_cases h2 : idx j = idx x
      · simp [h2, not_fle_pinf hp]
      · simp [h1, h2, Ne.symm h1, Ne.symm h2]

/-- **C24 (range).** All values are in `[0,1]`, and exactly the self entries are `0` (distances) or, without infinite
similarities, `1` (similarities). -/
theorem C24_sample_range {n s : ℕ} (D : Fin n → Fin s → XR K) (idx : Fin s → Fin n) (hs : s ≤ n)
    (metric : String) (hm : metric = "distance" ∨ metric = "similarity") (M : Fin n → Fin s → XR K)
    (h : sample (.mat false n s D) (fun j => ((idx j).val : ℤ)) metric none = .ok (.sampled n s M))
    (i : Fin n) (j : Fin s) :
    ∃ v, M i j = .fin v ∧ 0 ≤ v ∧ v ≤ 1 ∧ (metric = "distance" → (v = 0 ↔ idx j = i)) ∧
      (metric = "similarity" → D i j ≠ .pinf → (v = 1 ↔ idx j = i)) := by
  obtain ⟨M', hM', h1, h2, h3⟩ := C24_sample_values D idx hs metric hm
  have hMM : M = M' := by
    rw [h] at hM'
    have := Except.ok.inj hM'
    injection this
  subst hMM
  have hs0 : 0 < s := Nat.pos_of_ne_zero (by rintro rfl; exact j.elim0)
  have hsK : (0 : K) < s := by exact_mod_cast hs0
  by_cases hij : idx j = i
  · refine ⟨_, h1 i j hij, ?_, ?_, ?_, ?_⟩
    · split <;> simp
    · split <;> simp
    · rintro rfl; simp [hij]
    · rintro rfl _; simp [hij]
  · rcases hm with rfl | rfl
    · refine ⟨_, h2 i j hij rfl, ?_⟩
      have hlt : (fartherS D idx i j).card < s := by
        calc (fartherS D idx i j).card < (Finset.univ : Finset (Fin s)).card := by
              apply Finset.card_lt_card
              refine ⟨Finset.subset_univ _, fun hc => ?_⟩
              have := hc (Finset.mem_univ j)
              simp [fartherS] at this
          _ = s := by simp
      have hltK : ((fartherS D idx i j).card : K) / s < 1 := by
        rw [div_lt_one hsK]; exact_mod_cast hlt
      have h0 : 0 ≤ ((fartherS D idx i j).card : K) / s := by positivity
      refine ⟨by linarith, by linarith, fun _ => ?_, fun hc => absurd hc (by decide)⟩
      simp only [hij, iff_false]
      intro hc; linarith
    · have hv : ∃ v, M i j = .fin v ∧ 0 ≤ v ∧ v ≤ 1 := by
        have hMeq := sample_none D idx "similarity" (Or.inr rfl) hs
        rw [h] at hMeq
        have hMeq' := Except.ok.inj hMeq
        injection hMeq' with _ _ hMeq'
        rw [hMeq', sampleCore_apply, if_neg (Ne.symm hij), if_pos (List.mem_finRange i)]
        exact ⟨_, rfl, entry_mem_unit _ _ _ _⟩
      obtain ⟨v, hv, hv0, hv1⟩ := hv
      refine ⟨v, hv, hv0, hv1, fun hc => absurd hc (by decide), fun _ hp => ?_⟩
      have h3' := h3 i j hij rfl hp
      rw [hv] at h3'
      injection h3' with h3'
      simp only [hij, iff_false]
      rw [h3']
      have hlt : (lessSimilarS D idx i j).card < s := by
        calc (lessSimilarS D idx i j).card < (Finset.univ : Finset (Fin s)).card := by
              apply Finset.card_lt_card
              refine ⟨Finset.subset_univ _, fun hc => ?_⟩
              have := hc (Finset.mem_univ j)
              simp [lessSimilarS] at this
          _ = s := by simp
      have hltK : ((lessSimilarS D idx i j).card : K) / s < 1 := by
        rw [div_lt_one hsK]; exact_mod_cast hlt
      exact hltK.ne

/-- **C24 (full sample).** With `sample_ind = arange(n)` and a symmetric matrix, sampled and full Mutual Proximity
agree. -/
theorem C24_full_sample (order : Order K) {n : ℕ} (D : Fin n → Fin n → XR K) (sp : Bool) (metric : String)
    (minNnz : ℤ) (M : Fin n → Fin n → K) (hsym : Symmetric D)
    (h : full order (.obj (.mat sp n n D)) metric none minNnz = .ok (.dense n M)) :
    sample (.mat false n n D) (Np.arange 0 n) metric none
      = .ok (.sampled n n (fun i j => .fin (M i j))) := by
  obtain ⟨hm, rfl⟩ := full_dense_inv h
  have har : (Np.arange 0 n : Fin n → ℤ) = fun j => (((id j : Fin n).val : ℕ) : ℤ) := by
    funext j; simp [Np.arange]
  rw [har, sample_none D id metric hm le_rfl]
  congr 2
  funext i j
  rw [sampleCore_apply, fullDense_apply]
  simp only [id]
  by_cases hij : i = j
  · simp [hij]
  · rw [if_neg hij, if_neg hij, if_pos (List.mem_finRange i)]
    have hE : ∀ a, excl metric D id a = Np.fillDiagonal D (excludeValue metric) a := by
      intro a; funext x; simp [excl, Np.fillDiagonal, Fin.val_inj]
    have hcomm : ∀ (u v : Fin n → XR K) d, entry metric u v d = entry metric v u d := by
      intro u v d
      unfold entry
      simp only [Bool.and_comm]
    have hE' : excl metric D id = Np.fillDiagonal D (excludeValue metric) := by
      funext a; exact hE a
    split
    · rw [hsym j i, hE']
    · rw [hE', hcomm]

/-- **C24 (test rows).** `test_ind` selects rows of the result obtained without it. -/
theorem C24_test_rows {n s t : ℕ} (D : Fin n → Fin s → XR K) (idx : Fin s → Fin n) (tidx : Fin t → Fin n)
    (hs : s ≤ n) (metric : String) (hm : metric = "distance" ∨ metric = "similarity")
    (M : Fin n → Fin s → XR K)
    (h : sample (.mat false n s D) (fun j => ((idx j).val : ℤ)) metric none = .ok (.sampled n s M)) :
    sample (.mat false n s D) (fun j => ((idx j).val : ℤ)) metric (some ⟨t, fun r => ((tidx r).val : ℤ)⟩)
      = .ok (.sampled t s (fun r => M (tidx r))) := by
  rw [sample_none D idx metric hm hs] at h
  have hM := Except.ok.inj h
  injection hM with _ _ hM
  subst hM
  rw [sample_some D idx tidx metric hm hs]
  congr 2
  funext r j
  rw [sampleCore_apply, sampleCore_apply]
  simp [List.mem_ofFn]

/-! ## Sparse variant -/

/-- **C25 (values).** For symmetric non-negative similarities and any scheduling of the workers, a stored pair whose
rows both have more than `min_nnz` entries gets the fraction of points at most as similar to both. -/
theorem C25_sparse_values (order : Order K) {n : ℕ} (S : Fin n → Fin n → K) (minNnz : ℤ)
    (ho : (order n S).Perm (pairs S)) (hsym : Symmetric S) (hnn : ∀ i j, 0 ≤ S i j) :
    ∃ R : Fin n → Fin n → XR K, full order (.csr n n S) "similarity" none minNnz = .ok (.csr n R) ∧
      (∀ i, R i i = .fin 1) ∧
      (∀ i j, i ≠ j → S i j = 0 → R i j = .fin 0) ∧
      (∀ i j, i ≠ j → S i j ≠ 0 → minNnz < nnz (S i) → minNnz < nnz (S j) →
        R i j = .fin (((Finset.univ.filter (fun x => S i x ≤ S i j ∧ S j x ≤ S i j)).card : K) / n)) := by
  refine ⟨sparse (order n S) minNnz S, ?_, ?_, ?_, ?_⟩
  · simp [full, fullChecks, checkValidMetric]
  · intro i; rw [sparse_apply minNnz S ho hsym]; simp
  · intro i j hij h0; rw [sparse_apply minNnz S ho hsym]; simp [hij, h0]
  · intro i j hij h0 hi hj
    rw [sparse_apply minNnz S ho hsym, if_neg hij, if_neg (not_le.2 hi), if_neg h0, secDist_eq hnn hi hj]

/-- **C25.** If moreover the self similarities are strictly larger than the similarity of the pair, the value is the
one computed by the dense variant. -/
theorem C25_sparse_eq_dense (order order' : Order K) {n : ℕ} (S : Fin n → Fin n → K) (minNnz : ℤ)
    (ho : (order n S).Perm (pairs S)) (hsym : Symmetric S) (hnn : ∀ i j, 0 ≤ S i j)
    (R : Fin n → Fin n → XR K) (M : Fin n → Fin n → K)
    (hR : full order (.csr n n S) "similarity" none minNnz = .ok (.csr n R))
    (hM : full order' (.obj (.mat false n n (fun i j => .fin (S i j)))) "similarity" none minNnz
      = .ok (.dense n M)) (i j : Fin n) (hij : i ≠ j) (h0 : S i j ≠ 0)
    (hi : minNnz < nnz (S i)) (hj : minNnz < nnz (S j)) (hdi : S i j < S i i) (hdj : S i j < S j j) :
    R i j = .fin (M i j) := by
  obtain ⟨R', hR', -, -, hv⟩ := C25_sparse_values order S minNnz ho hsym hnn
  have hRR : R = R' := by
    rw [hR] at hR'
    have := Except.ok.inj hR'
    injection this
  subst hRR
  rw [hv i j hij h0 hi hj]
  have hsym' : Symmetric (fun i j => (.fin (S i j) : XR K)) := fun a b => by simp only [hsym a b]
  rw [(C21_computes_definition order' _ false _ none minNnz M hM hsym' i j).2 rfl (by simp),
    mpSimilarity, if_neg hij, lessSimilar]
  congr 3
  refine congrArg Finset.card (Finset.filter_congr (fun x _ => ?_))
  simp only [XR.fle]
  constructor
  · rintro ⟨h1, h2⟩
    refine ⟨?_, ?_, h1, h2⟩
    · rintro rfl; exact absurd h1 (not_le.2 hdi)
    · rintro rfl; exact absurd h2 (not_le.2 hdj)
  · rintro ⟨-, -, h1, h2⟩; exact ⟨h1, h2⟩

/-- **C25 (schedules).** Any two schedules of the workers give the same sparse matrix. -/
theorem C25_schedule_independent (order order' : Order K) {n : ℕ} (S : Fin n → Fin n → K) (metric : String)
    (test : Option TestArg) (minNnz : ℤ) (ho : (order n S).Perm (pairs S)) (ho' : (order' n S).Perm (pairs S)) :
    full order (.csr n n S) metric test minNnz = full order' (.csr n n S) metric test minNnz := by
  have : sparse (order n S) minNnz S = sparse (order' n S) minNnz S := by
    unfold sparse
    have : Sched.exec (fun _ : Fin n × Fin n => (.fin 0 : XR K))
        ((order n S).map (fun p => (p, secDist minNnz S p.1 p.2)))
        = Sched.exec (fun _ : Fin n × Fin n => (.fin 0 : XR K))
        ((order' n S).map (fun p => (p, secDist minNnz S p.1 p.2))) := by
      funext ⟨i, j⟩
      rw [data_apply minNnz S ho, data_apply minNnz S ho']
    rw [this]
  simp [full, this]

/-! ## Held-out points -/

/-- **C51 (violated).** The documentation promises that points indexed in `test_ind` are held out. An integer index
array without `-1` is silently ignored: the result is the one for no test set. -/
theorem C51_index_array_ignored (order : Order K) {n : ℕ} (D : Fin n → Fin n → XR K) (sp : Bool)
    (metric : String) (minNnz : ℤ) (l : List ℤ) (hl : (-1 : ℤ) ∉ l) :
    full order (.obj (.mat sp n n D)) metric (some (.index l)) minNnz
      = full order (.obj (.mat sp n n D)) metric none minNnz := by
  have h : (TestArg.index l).notAllInverted = false := by
    simp only [TestArg.notAllInverted, Bool.not_eq_false', List.all_eq_true]
    intro t ht
    simp only [ne_eq, decide_not, Bool.not_eq_true', decide_eq_false_iff_not]
    rintro rfl
    exact hl ht
  simp [full, fullChecks, h]

/-- **C51 (partial).** Boolean masks are not ignored: a mask selecting a point is refused, for both kinds of matrix. -/
theorem C51_mask_refused_partial (order : Order K) {n : ℕ} (D : Fin n → Fin n → XR K) (S : Fin n → Fin n → K)
    (sp : Bool) (metric : String) (hm : metric = "distance" ∨ metric = "similarity") (minNnz : ℤ)
    (b : List Bool) (hb : true ∈ b) :
    full order (.obj (.mat sp n n D)) metric (some (.mask b)) minNnz = .error .notImplementedError ∧
    full order (.csr n n S) "similarity" (some (.mask b)) minNnz = .error .notImplementedError := by
  have h : (TestArg.mask b).notAllInverted = true := by
    simp only [TestArg.notAllInverted, Bool.not_eq_true']
    rw [Bool.eq_false_iff]
    intro hc
    rw [List.all_eq_true] at hc
    exact absurd (hc true hb) (by simp)
  constructor
  · rcases hm with rfl | rfl <;> simp [full, fullChecks, checkValidMetric, h] <;> rfl
  · simp [full, fullChecks, checkValidMetric, h]; rfl

/-- **C52 (violated).** `min_nnz` is documented as "calculate MP iff at least `min_nnz` values are present in both
rows, otherwise return the original similarity". A row with *exactly* `min_nnz` values is not rescaled, and the
entries of all other rows towards it are `nan` instead of the original similarity. -/
theorem C52_min_nnz_boundary (order : Order K) {n : ℕ} (S : Fin n → Fin n → K) (minNnz : ℤ)
    (ho : (order n S).Perm (pairs S)) (hsym : Symmetric S) (R : Fin n → Fin n → XR K)
    (hR : full order (.csr n n S) "similarity" none minNnz = .ok (.csr n R))
    (i j : Fin n) (hij : i ≠ j) (hi : (nnz (S i) : ℤ) = minNnz) :
    R i j = .fin (S i j) ∧ (minNnz < nnz (S j) → S j i ≠ 0 → R j i = .nan) := by
  have hRe : R = sparse (order n S) minNnz S := by
    have hf : full order (.csr n n S) "similarity" none minNnz
        = .ok (.csr n (sparse (order n S) minNnz S)) := by
      simp [full, fullChecks, checkValidMetric]
    rw [hf] at hR
    have := Except.ok.inj hR
    injection this with _ h; exact h.symm
  subst hRe
  constructor
  · rw [sparse_apply minNnz S ho hsym, if_neg hij, if_pos hi.le]
  · intro hj h0
    rw [sparse_apply minNnz S ho hsym, if_neg (Ne.symm hij), if_neg (not_le.2 hj), if_neg h0]
    unfold secDist
    rw [if_pos (Or.inr hi.le)]

/-! ## The hypotheses are satisfiable: concrete cases -/

/-- Points 0, 1, 3 on a line. -/
def exD : Fin 3 → Fin 3 → XR ℚ := ![![.fin 0, .fin 1, .fin 3], ![.fin 1, .fin 0, .fin 2], ![.fin 3, .fin 2, .fin 0]]

/-- Sparse similarities of four points; rows have 3, 4, 3 and 2 values. -/
def exS : Fin 4 → Fin 4 → ℚ := ![![1, 3/4, 1/4, 0], ![3/4, 1, 1/2, 1/8], ![1/4, 1/2, 1, 0], ![0, 1/8, 0, 1]]

/-- Workers store their results in reverse order. -/
def exOrder : Order ℚ := fun _ S => (pairs S).reverse

example : Symmetric exD := by intro i j; fin_cases i <;> fin_cases j <;> rfl

-- C20, C21, C22, C23 (first call)
example : ∃ M : Fin 3 → Fin 3 → ℚ, full exOrder (.obj (.mat false 3 3 exD)) "distance" none 0 = .ok (.dense 3 M) ∧
    M 0 1 = 2/3 ∧ M 0 2 = 1 ∧ M 1 2 = 1 :=
  ⟨_, rfl, by decide +kernel, by decide +kernel, by decide +kernel⟩

-- C22: a strictly increasing map which is not affine; C23: second call
example : StrictMono (fun x : ℚ => if x < 0 then x else 2 * x) := by
  intro a b h; dsimp; split <;> split <;> linarith
example : ∃ M : Fin 3 → Fin 3 → ℚ,
    full exOrder (.obj (.mat false 3 3 (fun i j => (exD i j).neg))) "similarity" none 0 = .ok (.dense 3 M) ∧
    M 0 1 = 1/3 ∧ M 0 2 = 0 :=
  ⟨_, rfl, by decide +kernel, by decide +kernel⟩
example : (∀ a b, (exD a b).isFinite = true) ∧
    (∀ x : Fin 3, x ≠ 0 → x ≠ 1 → exD 0 x ≠ exD 0 1 ∧ exD 1 x ≠ exD 0 1) := by
  constructor <;> decide +kernel

-- C24: three points, sample consisting of points 2 and 0
example : ∃ M : Fin 3 → Fin 2 → XR ℚ,
    sample (.mat false 3 2 (fun i (j : Fin 2) => exD i (![2, 0] j))) (fun j : Fin 2 => (((![2, 0] : Fin 2 → Fin 3) j).val : ℤ))
      "distance" none = .ok (.sampled 3 2 M) ∧ M 1 0 = .fin 1 ∧ M 1 1 = .fin (1/2) ∧ M 2 0 = .fin 0 :=
  ⟨_, rfl, by decide +kernel, by decide +kernel, by decide +kernel⟩

-- C25, C52
example : Symmetric exS ∧ (∀ i j, 0 ≤ exS i j) := by
  constructor
  · intro i j; fin_cases i <;> fin_cases j <;> rfl
  · decide +kernel
example : (exOrder 4 exS).Perm (pairs exS) := List.reverse_perm _
example : ∃ R : Fin 4 → Fin 4 → XR ℚ, full exOrder (.csr 4 4 exS) "similarity" none 2 = .ok (.csr 4 R) ∧
    R 0 1 = .fin (2/4) ∧ R 0 2 = .fin (1/4) ∧ R 3 1 = .fin (1/8) ∧ R 1 3 = .nan :=
  ⟨_, rfl, by decide +kernel, by decide +kernel, by decide +kernel, by decide +kernel⟩
example : (2 : ℤ) < nnz (exS 0) ∧ (2 : ℤ) < nnz (exS 1) ∧ exS 0 1 < exS 0 0 ∧ exS 0 1 < exS 1 1 ∧
    (nnz (exS 3) : ℤ) = 2 ∧ exS 0 1 ≠ 0 :=
  ⟨by decide +kernel, by decide +kernel, by decide +kernel, by decide +kernel, by decide +kernel, by decide +kernel⟩

-- C51: holding out point 0 is accepted and changes nothing
example : full exOrder (.obj (.mat false 3 3 exD)) "distance" (some (.index [0])) 0
    = full exOrder (.obj (.mat false 3 3 exD)) "distance" none 0 :=
  C51_index_array_ignored _ _ _ _ _ _ (by decide)

/-- **C52 (the boundary changes results).** With `min_nnz = 2`, row 3 has two values, and both its entry and the
entry towards it differ from the Mutual Proximity (here 0) obtained with `min_nnz = 1`. -/
theorem C52_min_nnz_witness : ∃ R R' : Fin 4 → Fin 4 → XR ℚ,
    full exOrder (.csr 4 4 exS) "similarity" none 2 = .ok (.csr 4 R) ∧
    full exOrder (.csr 4 4 exS) "similarity" none 1 = .ok (.csr 4 R') ∧
    (nnz (exS 3) : ℤ) = 2 ∧ (nnz (exS 1) : ℤ) ≥ 2 ∧
    R 3 1 ≠ R' 3 1 ∧ R 1 3 = .nan ∧ R' 1 3 = R' 3 1 ∧ R' 3 1 = .fin 0 :=
  ⟨_, _, rfl, rfl, by decide +kernel, by decide +kernel, by decide +kernel, by decide +kernel, by decide +kernel,
    by decide +kernel⟩

end HubToolbox.MPEmp
