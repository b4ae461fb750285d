import Verif.MPPar.Sparse

/-!
# Sparse Gamma and Gumbel variants: few values, renumbering, missing values
-/

set_option autoImplicit false

namespace HubToolbox.MPPar

open HubToolbox

theorem pos_of_fin {n : ℕ} (i : Fin n) : 0 < n := Nat.pos_of_ne_zero fun h => by subst h; exact i.elim0

/-- C105: rows with at most `min_nnz` values are kept by the Gamma and the Gumbel variant; all other rows have self
similarity one. The full claim, that a row gets rescaled if it has at least `min_nnz` values, and that the value of any pair
with one object below that is kept, does not hold: see `C105_violated_boundary` and `C105_violated_pair`. -/
theorem C105_kept_partial (F : Dists) {n : ℕ} (hn : 0 < n) (S : Fin n → Fin n → ℝ) (hS : ∀ i, S i i = 1) (mn : ℤ)
    (test : Option (List ℤ)) : ∃ M G : Fin n → Fin n → XR ℝ,
      gammai F (.mat true n n S) "similarity" mn test = .ok ⟨n, M⟩ ∧ gumbelSparse S mn (LS.trainInd n test) = .ok G ∧
      (∀ i, (Spec.rowCount S i : ℤ) ≤ mn → ∀ j, M i j = .fin (S i j) ∧ G i j = .fin (S i j)) ∧
      (∀ i, M i i = .fin 1 ∧ G i i = .fin 1) ∧
      (∀ i j, mn < (Spec.rowCount S i : ℤ) → mn < (Spec.rowCount S j : ℤ) → M i j = M j i ∧ G i j = G j i) := by
  refine ⟨_, _, gammai_sparse_ok F hn S hS _ (Or.inl rfl) mn test, gumbelSparse_eq hn S hS mn _, ?_, ?_, ?_⟩
  · intro i hi j
    simp only [sparseFill_apply, nnz_eq, hi, if_true, and_self]
  · intro i
    simp only [sparseFill_apply, hS, if_true, ite_self, and_self]
  · intro i j hi hj
    simp only [sparseFill_apply, nnz_eq, hi.not_ge, hj.not_ge, if_false]
    rcases lt_trichotomy i j with h | h | h
    · simp [h, h.ne, h.ne', h.not_gt]
    · simp [h]
    · simp [h, h.ne, h.ne', h.not_gt]

example : (Spec.rowCount half3 0 : ℤ) ≤ 3 := by
  have := Finset.card_le_univ (Finset.univ.filter (fun c => half3 0 c ≠ 0))
  unfold Spec.rowCount
  simp only [Fintype.card_fin] at this
  exact_mod_cast this

/-- C105: an object with exactly `min_nnz` values is not rescaled, whatever its parameters. -/
theorem C105_violated_boundary (F : Dists) {n : ℕ} (S : Fin n → Fin n → ℝ) (hS : ∀ i, S i i = 1) (i : Fin n)
    (test : Option (List ℤ)) : ∃ M : Fin n → Fin n → XR ℝ,
      gammai F (.mat true n n S) "similarity" (Spec.rowCount S i) test = .ok ⟨n, M⟩ ∧ ∀ j, M i j = .fin (S i j) := by
  obtain ⟨M, G, hM, -, h, -⟩ := C105_kept_partial F (pos_of_fin i) S hS (Spec.rowCount S i) test
  exact ⟨M, hM, fun j => (h i le_rfl j).1⟩

/-- C105: the similarity of an object to another one with a smaller number and too few values is not kept, but becomes
zero. -/
theorem C105_violated_pair (F : Dists) {n : ℕ} (S : Fin n → Fin n → ℝ) (hS : ∀ i, S i i = 1) (mn : ℤ) (test : Option (List ℤ))
    (i j : Fin n) (hji : j < i) (hi : mn < (Spec.rowCount S i : ℤ)) (hj : (Spec.rowCount S j : ℤ) ≤ mn) (h0 : S i j ≠ 0) :
    ∃ M G : Fin n → Fin n → XR ℝ,
      gammai F (.mat true n n S) "similarity" mn test = .ok ⟨n, M⟩ ∧ gumbelSparse S mn (LS.trainInd n test) = .ok G ∧
      M i j = .fin 0 ∧ G i j = .fin 0 ∧ M i j ≠ .fin (S i j) ∧ G i j ≠ .fin (S i j) := by
  have e : ∀ f, sparseFill mn S f i j = .fin 0 := by
    intro f
    simp only [sparseFill_apply, nnz_eq, hi.not_ge, hj, hji.ne', hji.not_gt, if_true, if_false]
  refine ⟨_, _, gammai_sparse_ok F (pos_of_fin i) S hS _ (Or.inl rfl) mn test, gumbelSparse_eq (pos_of_fin i) S hS mn _, e _,
    e _, ?_, ?_⟩ <;>
  · rw [e]
    intro h
    exact h0 (XR.fin.inj h).symm

/-- Object `0` has values for all others, the others for two, two and one. -/
noncomputable def star4 : Fin 4 → Fin 4 → ℝ :=
  ![![1, 1 / 2, 1 / 4, 1 / 4], ![1 / 2, 1, 1 / 4, 0], ![1 / 4, 1 / 4, 1, 0], ![1 / 4, 0, 0, 1]]

theorem star4_vals : star4 0 1 = 1 / 2 ∧ star4 0 2 = 1 / 4 ∧ star4 0 3 = 1 / 4 ∧ star4 1 0 = 1 / 2 ∧ star4 1 2 = 1 / 4 ∧
    star4 1 3 = 0 ∧ star4 2 0 = 1 / 4 ∧ star4 2 1 = 1 / 4 ∧ star4 2 3 = 0 ∧ star4 3 0 = 1 / 4 ∧ star4 3 1 = 0 ∧ star4 3 2 = 0 :=
  ⟨rfl, rfl, rfl, rfl, rfl, rfl, rfl, rfl, rfl, rfl, rfl, rfl⟩

theorem star4_diag : ∀ i, star4 i i = 1 := by intro i; fin_cases i <;> rfl

theorem star4_symm : ∀ i j, star4 i j = star4 j i := by intro i j; fin_cases i <;> fin_cases j <;> rfl

theorem star4_count : Spec.rowCount star4 0 = 4 ∧ Spec.rowCount star4 1 = 3 := by
  constructor
  · have h : Finset.univ.filter (fun c => star4 0 c ≠ 0) = Finset.univ := by
      ext c
      simp only [Finset.mem_filter, Finset.mem_univ, true_and, iff_true]
      fin_cases c
      · exact (star4_diag 0).trans_ne one_ne_zero
      · exact star4_vals.1.trans_ne (by norm_num)
      · exact star4_vals.2.1.trans_ne (by norm_num)
      · exact star4_vals.2.2.1.trans_ne (by norm_num)
    unfold Spec.rowCount
    rw [h]
    rfl
  · have h : Finset.univ.filter (fun c => star4 1 c ≠ 0) = {0, 1, 2} := by
      ext c
      simp only [Finset.mem_filter, Finset.mem_univ, true_and]
      fin_cases c
      · exact iff_of_true (star4_vals.2.2.2.1.trans_ne (by norm_num)) (by decide)
      · exact iff_of_true ((star4_diag 1).trans_ne one_ne_zero) (by decide)
      · exact iff_of_true (star4_vals.2.2.2.2.1.trans_ne (by norm_num)) (by decide)
      · exact iff_of_false (not_not.mpr star4_vals.2.2.2.2.2.1) (by decide)
    unfold Spec.rowCount
    rw [h]
    rfl

theorem star4_present : Spec.present Finset.univ star4 0 = {1, 2, 3} ∧ Spec.present Finset.univ star4 1 = {0, 2} := by
  constructor
  · ext c
    simp only [Spec.present, Finset.mem_filter, Finset.mem_univ, true_and]
    fin_cases c
    · exact iff_of_false (fun h => h.1 rfl) (by decide)
    · exact iff_of_true ⟨by decide, star4_vals.2.2.2.1.trans_ne (by norm_num)⟩ (by decide)
    · exact iff_of_true ⟨by decide, star4_vals.2.2.2.2.2.2.1.trans_ne (by norm_num)⟩ (by decide)
    · exact iff_of_true ⟨by decide, star4_vals.2.2.2.2.2.2.2.2.2.1.trans_ne (by norm_num)⟩ (by decide)
  · ext c
    simp only [Spec.present, Finset.mem_filter, Finset.mem_univ, true_and]
    fin_cases c
    · exact iff_of_true ⟨by decide, star4_vals.1.trans_ne (by norm_num)⟩ (by decide)
    · exact iff_of_false (fun h => h.1 rfl) (by decide)
    · exact iff_of_true ⟨by decide, star4_vals.2.2.2.2.2.2.2.1.trans_ne (by norm_num)⟩ (by decide)
    · exact iff_of_false (fun h => h.2 star4_vals.2.2.2.2.2.2.2.2.2.2.1) (by decide)

theorem star4_mean : Spec.meanOver (Spec.present Finset.univ star4 0) (fun c => star4 c 0) = 1 / 3 ∧
    Spec.meanOver (Spec.present Finset.univ star4 1) (fun c => star4 c 1) = 3 / 8 := by
  rw [star4_present.1, star4_present.2]
  have hc : (({1, 2, 3} : Finset (Fin 4)).card : ℝ) = 3 := by
    have : ({1, 2, 3} : Finset (Fin 4)).card = 3 := by decide
    rw [this]; norm_num
  have hc' : (({0, 2} : Finset (Fin 4)).card : ℝ) = 2 := by
    have : ({0, 2} : Finset (Fin 4)).card = 2 := by decide
    rw [this]; norm_num
  unfold Spec.meanOver
  rw [hc, hc', Finset.sum_insert (by decide), Finset.sum_pair (by decide), Finset.sum_pair (by decide)]
  norm_num [star4_vals]

theorem star4_var : Spec.sampleVariance (Spec.present Finset.univ star4 0) (fun c => star4 c 0) = 1 / 48 ∧
    Spec.sampleVariance (Spec.present Finset.univ star4 1) (fun c => star4 c 1) = 1 / 32 := by
  unfold Spec.sampleVariance
  rw [star4_mean.1, star4_mean.2, star4_present.1, star4_present.2]
  have hc : (({1, 2, 3} : Finset (Fin 4)).card : ℝ) = 3 := by
    have : ({1, 2, 3} : Finset (Fin 4)).card = 3 := by decide
    rw [this]; norm_num
  have hc' : (({0, 2} : Finset (Fin 4)).card : ℝ) = 2 := by
    have : ({0, 2} : Finset (Fin 4)).card = 2 := by decide
    rw [this]; norm_num
  rw [hc, hc', Finset.sum_insert (by decide), Finset.sum_pair (by decide), Finset.sum_pair (by decide)]
  norm_num [star4_vals]

/-- The value of the pair in the first numbering is not zero. -/
theorem star4_cell : ∃ x : ℝ, 0 < x ∧ gamCell simple star4 (List.finRange 4) 0 1 = .fin x := by
  refine ⟨_, ?_, gamCell_fin simple star4 (List.finRange 4) (List.nodup_finRange 4) star4_diag 0 1
    (fun k _ => List.mem_finRange k) ?_ ?_ ?_⟩
  · rw [finRange_toFinset]
    have key : ∀ (N : Finset (Fin 4)) (f : Fin 4 → ℝ) (x : ℝ), 0 < x → 0 < Spec.meanOver N f → 0 ≤ Spec.sampleVariance N f →
        0 < Spec.gammaProb simple.gamma N f x := by
      intro N f x hx hm hv
      have hpos : 0 < max x 0 / (Spec.guard (Spec.sampleVariance N f) / Spec.meanOver N f) :=
        div_pos (lt_max_of_lt_left hx) (div_pos (guard_pos hv) hm)
      show 0 < 1 - Real.exp (-(max x 0 / (Spec.guard (Spec.sampleVariance N f) / Spec.meanOver N f)))
      have := Real.exp_lt_exp.mpr (neg_neg_of_pos hpos)
      rw [Real.exp_zero] at this
      linarith
    refine mul_pos (key _ _ _ ?_ ?_ ?_) (key _ _ _ ?_ ?_ ?_)
    · norm_num [star4_vals]
    · rw [star4_mean.1]; norm_num
    · rw [star4_var.1]; norm_num
    · norm_num [star4_vals]
    · rw [star4_mean.2]; norm_num
    · rw [star4_var.2]; norm_num
  · rw [finRange_toFinset]
    rintro k (rfl | rfl)
    · rw [star4_present.1]; decide
    · rw [star4_present.2]; decide
  · rw [finRange_toFinset]
    rintro k (rfl | rfl)
    · rw [star4_mean.1]; norm_num
    · rw [star4_mean.2]; norm_num
  · rw [finRange_toFinset]
    rintro k (rfl | rfl)
    · rw [star4_var.1]; norm_num
    · rw [star4_var.2]; norm_num

/-- Values do not depend on the numbering. -/
theorem train_perm {n : ℕ} (σ : Equiv.Perm (Fin n)) (test test' : Option (List ℤ))
    (hT : ∀ i, i ∈ Spec.training n test' ↔ σ i ∈ Spec.training n test) :
    ((LS.trainInd n test').map σ).Perm (LS.trainInd n test) := by
  rw [List.perm_ext_iff_of_nodup ((LS.trainInd_nodup n test').map σ.injective) (LS.trainInd_nodup n test)]
  intro a
  have hmem : ∀ t b, b ∈ LS.trainInd n t ↔ b ∈ Spec.training n t := fun t b => by
    rw [← LS.trainInd_toFinset, List.mem_toFinset]
  simp only [List.mem_map, hmem, hT]
  constructor
  · rintro ⟨b, hb, rfl⟩
    exact hb
  · intro ha
    exact ⟨σ.symm a, by simpa using ha, by simp⟩

theorem colNnz_perm {n : ℕ} (S : Fin n → Fin n → ℝ) (σ : Equiv.Perm (Fin n)) (l l' : List (Fin n)) (h : (l'.map σ).Perm l)
    (j : Fin n) : colNnz (fun a b => S (σ a) (σ b)) l' j = colNnz S l (σ j) := by
  unfold colNnz
  have := (h.filter (fun i => decide (S i (σ j) ≠ 0))).length_eq
  rw [← this, List.filter_map, List.length_map]
  rfl

theorem colMoment_perm {n : ℕ} (S : Fin n → Fin n → ℝ) (σ : Equiv.Perm (Fin n)) (l l' : List (Fin n))
    (h : (l'.map σ).Perm l) (p : ℕ) (j : Fin n) :
    colMoment p (fun a b => S (σ a) (σ b)) l' j = colMoment p S l (σ j) := by
  unfold colMoment
  rw [colNnz_perm S σ l l' h, ← (h.map (fun i => S i (σ j) ^ p)).sum_eq, List.map_map]
  rfl

theorem rowCount_perm {n : ℕ} (S : Fin n → Fin n → ℝ) (σ : Equiv.Perm (Fin n)) (i : Fin n) :
    Spec.rowCount (fun a b => S (σ a) (σ b)) i = Spec.rowCount S (σ i) := by
  unfold Spec.rowCount
  refine Finset.card_bij (fun c _ => σ c) ?_ ?_ ?_
  · intro c hc
    simpa using hc
  · intro a _ b _ h
    exact σ.injective h
  · intro b hb
    exact ⟨σ.symm b, by simpa using hb, by simp⟩

theorem sparseFill_perm {n : ℕ} (mn : ℤ) (S : Fin n → Fin n → ℝ) (σ : Equiv.Perm (Fin n))
    (hmn : ∀ i, mn < (Spec.rowCount S i : ℤ)) (f g : Fin n → Fin n → XR ℝ) (hfg : ∀ i j, f i j = g (σ i) (σ j))
    (hg : ∀ i j, g i j = g j i) :
    sparseFill mn (fun a b => S (σ a) (σ b)) f = fun a b => sparseFill mn S g (σ a) (σ b) := by
  funext a b
  have hmn' : ∀ i, ¬((MPEmp.nnz (fun b => S (σ i) (σ b)) : ℕ) : ℤ) ≤ mn := by
    intro i
    have h := nnz_eq (fun a b => S (σ a) (σ b)) i
    rw [rowCount_perm S σ] at h
    rw [h]
    exact (hmn _).not_ge
  simp only [sparseFill_apply, hmn', nnz_eq, (hmn _).not_ge, if_false]
  by_cases hab : a = b
  · simp [hab]
  · have hab' : σ a ≠ σ b := fun h => hab (σ.injective h)
    rw [if_neg hab, if_neg hab', hfg, hfg, hg (σ b) (σ a), ite_self, ite_self]

/-- C106: renumbering the objects renumbers the results of the sparse variants in the same way; for the Gamma and Gumbel
variants if every object has more than `min_nnz` values. The full claim has no such condition; it does not hold, see
`C106_violated`. -/
theorem C106_relabel_partial (F : Dists) {n : ℕ} (hn : 0 < n) (S : Fin n → Fin n → ℝ) (hS : ∀ i, S i i = 1)
    (σ : Equiv.Perm (Fin n)) (ss mn : ℤ) (test test' : Option (List ℤ))
    (hT : ∀ i, i ∈ Spec.training n test' ↔ σ i ∈ Spec.training n test) :
    (∃ M : Fin n → Fin n → XR ℝ, gaussi F (.mat true n n S) "similarity" ss mn test none = .ok ⟨n, n, M⟩ ∧
      gaussi F (.mat true n n (fun a b => S (σ a) (σ b))) "similarity" ss mn test' none = .ok ⟨n, n, fun a b => M (σ a) (σ b)⟩)
    ∧ ((∀ i, mn < (Spec.rowCount S i : ℤ)) →
      ∃ M G : Fin n → Fin n → XR ℝ, gammai F (.mat true n n S) "similarity" mn test = .ok ⟨n, M⟩ ∧
        gammai F (.mat true n n (fun a b => S (σ a) (σ b))) "similarity" mn test' = .ok ⟨n, fun a b => M (σ a) (σ b)⟩ ∧
        gumbelSparse S mn (LS.trainInd n test) = .ok G ∧
        gumbelSparse (fun a b => S (σ a) (σ b)) mn (LS.trainInd n test') = .ok (fun a b => G (σ a) (σ b))) := by
  have hp := train_perm σ test test' hT
  have hS' : ∀ i, (fun a b => S (σ a) (σ b)) i i = 1 := fun i => hS (σ i)
  have hv1 : ∀ j, colVar1 (fun a b => S (σ a) (σ b)) (LS.trainInd n test') j = colVar1 S (LS.trainInd n test) (σ j) := by
    intro j
    unfold colVar1 colVar
    simp only [colMoment_perm S σ _ _ hp, colNnz_perm S σ _ _ hp]
  constructor
  · refine ⟨_, gaussi_sparse_ok F hn S hS _ (Or.inl rfl) ss mn test, ?_⟩
    rw [gaussi_sparse_ok F hn _ hS' _ (Or.inl rfl) ss mn test']
    congr 3
    funext a b
    unfold gaussCell colVar
    simp only [colMoment_perm S σ _ _ hp, EmbeddingLike.apply_eq_iff_eq]
  · intro hmn
    refine ⟨_, _, gammai_sparse_ok F hn S hS _ (Or.inl rfl) mn test, ?_, gumbelSparse_eq hn S hS mn _, ?_⟩
    · rw [gammai_sparse_ok F hn _ hS' _ (Or.inl rfl) mn test']
      congr 2
      refine sparseFill_perm mn S σ hmn _ _ ?_ (gamCell_comm F S _)
      intro i j
      unfold gamCell
      simp only [colMoment_perm S σ _ _ hp, hv1]
    · rw [gumbelSparse_eq hn _ hS' mn]
      congr 1
      refine sparseFill_perm mn S σ hmn _ _ ?_ (gumCell_comm S _)
      intro i j
      unfold gumCell
      simp only [colMoment_perm S σ _ _ hp, hv1]

example : ∀ i, (2 : ℤ) < (Spec.rowCount sim3 i : ℤ) := by
  intro i
  have h : Finset.univ.filter (fun c => sim3 i c ≠ 0) = Finset.univ := by
    ext c; simp [sim3_facts.2.2]
  unfold Spec.rowCount
  rw [h]
  norm_num

/-- C106: renumbering four objects (in reverse) changes the secondary similarity of a pair from a positive value to zero. -/
theorem C106_violated : ∃ (F : Dists) (S : Fin 4 → Fin 4 → ℝ) (σ : Equiv.Perm (Fin 4)) (M M' : Fin 4 → Fin 4 → XR ℝ),
    (∀ i, S i i = 1) ∧ (∀ i j, S i j = S j i) ∧
    gammai F (.mat true 4 4 S) "similarity" 3 none = .ok ⟨4, M⟩ ∧
    gammai F (.mat true 4 4 (fun a b => S (σ a) (σ b))) "similarity" 3 none = .ok ⟨4, M'⟩ ∧
    ∃ a b x, 0 < x ∧ M (σ a) (σ b) = .fin x ∧ M' a b = .fin 0 := by
  obtain ⟨x, hx, hc⟩ := star4_cell
  refine ⟨simple, star4, Fin.revPerm, _, _, star4_diag, star4_symm,
    gammai_sparse_ok simple (by norm_num) star4 star4_diag _ (Or.inl rfl) 3 none,
    gammai_sparse_ok simple (by norm_num) (fun a b => star4 (Fin.revPerm a) (Fin.revPerm b)) (fun i => star4_diag _) _
      (Or.inl rfl) 3 none, 3, 2, x, hx, ?_, ?_⟩
  · have e3 : (Fin.revPerm (3 : Fin 4)) = 0 := rfl
    have e2 : (Fin.revPerm (2 : Fin 4)) = 1 := rfl
    rw [e3, e2, sparseFill_apply, nnz_eq, star4_count.1, if_neg (by norm_num), if_neg (by decide), if_pos (by decide)]
    exact hc
  · have r3 : Spec.rowCount (fun a b => star4 (Fin.revPerm a) (Fin.revPerm b)) 3 = 4 :=
      (rowCount_perm star4 Fin.revPerm 3).trans star4_count.1
    have r2 : Spec.rowCount (fun a b => star4 (Fin.revPerm a) (Fin.revPerm b)) 2 = 3 :=
      (rowCount_perm star4 Fin.revPerm 2).trans star4_count.2
    have n3 := (nnz_eq (fun a b => star4 (Fin.revPerm a) (Fin.revPerm b)) 3).trans r3
    have n2 := (nnz_eq (fun a b => star4 (Fin.revPerm a) (Fin.revPerm b)) 2).trans r2
    rw [sparseFill_apply, n3, n2, if_neg (by norm_num), if_neg (by decide), if_neg (by decide),
      if_pos (by norm_num)]

example : (1 : Fin 4) < 2 ∧ (3 : ℤ) < (Spec.rowCount (fun a b => star4 (Fin.revPerm a) (Fin.revPerm b)) 3 : ℤ) := by
  refine ⟨by decide, ?_⟩
  rw [rowCount_perm]
  have : Spec.rowCount star4 (Fin.revPerm 3) = 4 := star4_count.1
  rw [this]
  norm_num

/-- C107: a missing value of a pair stays missing (zero) in the normal and the Gumbel variant, and in the Gamma variant if
both objects have at least two different positive values. The full claim has no such condition for the Gamma variant; it does
not hold, see `C107_violated`. -/
theorem C107_missing_partial (F : Dists) {n : ℕ} (S : Fin n → Fin n → ℝ) (hS : ∀ i, S i i = 1) (ss mn : ℤ)
    (test : Option (List ℤ)) (i j : Fin n) (hij : S i j = 0) (hji : S j i = 0) :
    ∃ M G H : Fin n → Fin n → XR ℝ, gaussi F (.mat true n n S) "similarity" ss mn test none = .ok ⟨n, n, M⟩ ∧
      gumbelSparse S mn (LS.trainInd n test) = .ok G ∧ gammai F (.mat true n n S) "similarity" mn none = .ok ⟨n, H⟩ ∧
      M i j = .fin 0 ∧ G i j = .fin 0 ∧
      ((∀ k, k = i ∨ k = j → 2 ≤ (Spec.present Finset.univ S k).card ∧
          0 < Spec.meanOver (Spec.present Finset.univ S k) (fun c => S c k) ∧
          Spec.sampleVariance (Spec.present Finset.univ S k) (fun c => S c k) ≠ 0) → H i j = .fin 0) := by
  have hne : i ≠ j := by
    rintro rfl
    rw [hS] at hij
    exact one_ne_zero hij
  have hn := pos_of_fin i
  refine ⟨_, _, _, gaussi_sparse_ok F hn S hS _ (Or.inl rfl) ss mn test, gumbelSparse_eq hn S hS mn _,
    gammai_sparse_ok F hn S hS _ (Or.inl rfl) mn none, ?_, ?_, ?_⟩
  · simp [hne, gaussCell, zeroMissing, hij, hji, XR.mul]
  · rw [sparseFill_apply]
    split_ifs <;> simp [gumCell, zeroMissing, hij, hji, XR.mul]
  · intro h
    have hpa : ∀ k, k = i ∨ k = j → 0 < Spec.meanOver (Spec.present Finset.univ S k) (fun c => S c k) ^ 2
        / Spec.guard (Spec.sampleVariance (Spec.present Finset.univ S k) (fun c => S c k)) := fun k hk =>
      div_pos (pow_pos (h k hk).2.1 2) (guard_pos (sampleVariance_nonneg _ _ (h k hk).1))
    have hz : ∀ k, k = i ∨ k = j → Spec.gammaProb F.gamma (Spec.present Finset.univ S k) (fun c => S c k) 0 = 0 := by
      intro k hk
      unfold Spec.gammaProb
      rw [max_self, zero_div, F.gamma_zero _ (hpa k hk)]
    have hc : gamCell F S (List.finRange n) i j = .fin 0 := by
      rw [gamCell_fin F S _ (List.nodup_finRange n) hS i j (fun k _ => List.mem_finRange k)]
      · rw [finRange_toFinset, hij, hji, hz i (Or.inl rfl), hz j (Or.inr rfl), zero_mul]
      · rw [finRange_toFinset]; exact fun k hk => (h k hk).1
      · rw [finRange_toFinset]; exact fun k hk => (h k hk).2.1
      · rw [finRange_toFinset]; exact fun k hk => (h k hk).2.2
    have hc' : gamCell F S (List.finRange n) j i = .fin 0 := by rw [gamCell_comm]; exact hc
    rw [sparseFill_apply]
    split_ifs
    · rw [hij]
    · exact hc
    · rfl
    · exact hc'

/-- Two objects without a common value, and a third one with values for both. -/
noncomputable def path3 : Fin 3 → Fin 3 → ℝ := ![![1, 1 / 2, 0], ![1 / 2, 1, 1 / 2], ![0, 1 / 2, 1]]

/-- C107: with a single value the estimated variance is `nan`, and so becomes the missing similarity in the Gamma variant. -/
theorem C107_violated (F : Dists) : (∀ i, path3 i i = 1) ∧ (∀ i j, path3 i j = path3 j i) ∧ path3 0 2 = 0 ∧
    ∃ M : Fin 3 → Fin 3 → XR ℝ, gammai F (.mat true 3 3 path3) "similarity" 0 none = .ok ⟨3, M⟩ ∧ M 0 2 = .nan := by
  have hd : ∀ i, path3 i i = 1 := by intro i; fin_cases i <;> rfl
  have v0 : path3 1 0 = 1 / 2 := rfl
  have v1 : path3 2 0 = 0 := rfl
  refine ⟨hd, ?_, rfl, _, gammai_sparse_ok F (by norm_num) path3 hd _ (Or.inl rfl) 0 none, ?_⟩
  · intro i j; fin_cases i <;> fin_cases j <;> rfl
  · have hr : 0 < Spec.rowCount path3 0 := Finset.card_pos.mpr ⟨0, by simp [hd]⟩
    rw [sparseFill_apply, nnz_eq, if_neg (by push Not; exact_mod_cast hr), if_neg (by decide), if_pos (by decide)]
    have hp : Spec.present (List.finRange 3).toFinset path3 0 = {1} := by
      rw [finRange_toFinset]
      ext c
      simp only [Spec.present, Finset.mem_filter, Finset.mem_univ, true_and]
      fin_cases c
      · exact iff_of_false (fun h => h.1 rfl) (by decide)
      · exact iff_of_true ⟨by decide, v0.trans_ne (by norm_num)⟩ (by decide)
      · exact iff_of_false (fun h => h.2 v1) (by decide)
    have hne : (Spec.present (List.finRange 3).toFinset path3 0).Nonempty := by rw [hp]; exact ⟨1, by decide⟩
    have hvar : Spec.variance ({1} : Finset (Fin 3)) (fun c => path3 c 0) = 0 := by
      simp [Spec.variance, Spec.meanOver]
    have hv : colVar1 path3 (List.finRange 3) 0 = .nan := by
      unfold colVar1
      rw [colVar_eq path3 _ (List.nodup_finRange 3) 0 (List.mem_finRange 0) (hd 0) hne,
        colNnz_eq path3 _ (List.nodup_finRange 3) 0 (List.mem_finRange 0) (hd 0), hp, hvar]
      simp [XR.div, XR.infMul, XR.mul]
    have hdn : ∀ a : XR ℝ, XR.div a .nan = .nan := fun a => by cases a <;> rfl
    have hnm : ∀ a : XR ℝ, XR.mul .nan a = .nan := fun a => by cases a <;> rfl
    have hnan : ∀ (x : ℝ) (b : XR ℝ), gamCdf F x .nan b = .nan := by
      intro x b
      simp [gamCdf, XR.flt, F.gammainc_nan]
    show gamCell F path3 (List.finRange 3) 0 2 = .nan
    unfold gamCell
    simp only [hv, hdn, hnan, hnm]

/-- C108: for a symmetric sparse similarity matrix in which every object has more than `min_nnz` values, of which at least two
belong to other objects, are not all the same and have a positive mean, the Gamma variant is finite, symmetric, has entries in
`[0,1]` and is the Mutual Proximity of the fitted Gamma distributions. The full claim has no such conditions (see
`C107_violated` and `C105_violated_pair`). -/
theorem C108_valid_partial (F : Dists) {n : ℕ} (hn : 0 < n) (S : Fin n → Fin n → ℝ) (hS : ∀ i, S i i = 1)
    (hsym : ∀ i j, S i j = S j i) (mn : ℤ) (hmn : ∀ i, mn < (Spec.rowCount S i : ℤ))
    (h2 : ∀ j, 2 ≤ (Spec.present Finset.univ S j).card)
    (hmu : ∀ j, 0 < Spec.meanOver (Spec.present Finset.univ S j) (fun c => S c j))
    (hva : ∀ j, Spec.sampleVariance (Spec.present Finset.univ S j) (fun c => S c j) ≠ 0) :
    ∃ M : Fin n → Fin n → ℝ, gammai F (.mat true n n S) "similarity" mn none = .ok ⟨n, fun i j => .fin (M i j)⟩
      ∧ (∀ i j, M i j = M j i) ∧ (∀ i j, 0 ≤ M i j ∧ M i j ≤ 1) ∧ (∀ i, M i i = 1)
      ∧ ∀ i j, i ≠ j → M i j = Spec.mutualProximity "similarity"
        (Spec.gammaProb F.gamma (Spec.present Finset.univ S i) (S i) (S i j))
        (Spec.gammaProb F.gamma (Spec.present Finset.univ S j) (S j) (S i j)) := by
  have hcol : ∀ i, (fun c => S c i) = S i := fun i => funext fun c => hsym c i
  have hcell : ∀ i j, gamCell F S (List.finRange n) i j
      = .fin (Spec.gammaProb F.gamma (Spec.present Finset.univ S i) (S i) (S i j)
        * Spec.gammaProb F.gamma (Spec.present Finset.univ S j) (S j) (S i j)) := by
    intro i j
    rw [gamCell_fin F S _ (List.nodup_finRange n) hS i j (fun k _ => List.mem_finRange k)]
    · rw [finRange_toFinset, hcol, hcol, hsym j i]
    · rw [finRange_toFinset]; exact fun k _ => h2 k
    · rw [finRange_toFinset]; exact fun k _ => hmu k
    · rw [finRange_toFinset]; exact fun k _ => hva k
  have hok := gammai_sparse_ok F hn S hS "similarity" (Or.inl rfl) mn none
  have e : sparseFill mn S (gamCell F S (LS.trainInd n none)) = fun i j => .fin (if i = j then 1 else
      (Spec.gammaProb F.gamma (Spec.present Finset.univ S i) (S i) (S i j)
        * Spec.gammaProb F.gamma (Spec.present Finset.univ S j) (S j) (S i j))) := by
    funext i j
    rw [sparseFill_apply, nnz_eq, nnz_eq, if_neg (hmn i).not_ge, if_neg (hmn j).not_ge]
    have h1 : gamCell F S (LS.trainInd n none) i j = _ := hcell i j
    have h2 : gamCell F S (LS.trainInd n none) j i = _ := (gamCell_comm F S _ j i).trans (hcell i j)
    rw [h1, h2]
    split_ifs <;> rfl
  rw [e] at hok
  have hunit : ∀ i x, 0 ≤ Spec.gammaProb F.gamma (Spec.present Finset.univ S i) (S i) x ∧
      Spec.gammaProb F.gamma (Spec.present Finset.univ S i) (S i) x ≤ 1 := by
    intro i x
    rw [← hcol]
    have hg := guard_pos (sampleVariance_nonneg (Spec.present Finset.univ S i) (fun c => S c i) (h2 i))
    have ha := div_pos (pow_pos (hmu i) 2) hg
    have hx : 0 ≤ max x 0 / (Spec.guard (Spec.sampleVariance (Spec.present Finset.univ S i) (fun c => S c i))
        / Spec.meanOver (Spec.present Finset.univ S i) (fun c => S c i)) :=
      div_nonneg (le_max_right _ _) (div_pos hg (hmu i)).le
    exact ⟨gamma_nonneg F ha hx, F.gamma_le_one _ _ ha hx⟩
  refine ⟨_, hok, ?_, ?_, ?_, ?_⟩
  · intro i j
    by_cases hij : i = j
    · simp [hij]
    · simp only [hij, Ne.symm hij, if_false, hsym j i]
      rw [mul_comm]
  · intro i j
    split_ifs
    · norm_num
    · exact ⟨mul_nonneg (hunit _ _).1 (hunit _ _).1, mul_le_one₀ (hunit _ _).2 (hunit _ _).1 (hunit _ _).2⟩
  · intro i
    simp
  · intro i j hij
    simp [hij, Spec.mutualProximity]

example : (∀ j, 2 ≤ (Spec.present Finset.univ sim3 j).card) ∧
    (∀ j, Spec.sampleVariance (Spec.present Finset.univ sim3 j) (fun c => sim3 c j) ≠ 0) ∧
    ∀ j, 0 < Spec.meanOver (Spec.present Finset.univ sim3 j) (fun c => sim3 c j) := by
  refine ⟨fun j => ?_, fun j => ?_, fun j => ?_⟩
  · rw [sim3_present, card3]
  · rw [sim3_present]
    unfold Spec.sampleVariance
    rw [card3]
    exact div_ne_zero (sim3_sq j) (by norm_num)
  · rw [sim3_present]
    fin_cases j
    · exact (mean3 (fun c => sim3 c 0)).1 ▸ by norm_num [sim3_vals]
    · exact (mean3 (fun c => sim3 c 1)).2.1 ▸ by norm_num [sim3_vals]
    · exact (mean3 (fun c => sim3 c 2)).2.2 ▸ by norm_num [sim3_vals]

end HubToolbox.MPPar
