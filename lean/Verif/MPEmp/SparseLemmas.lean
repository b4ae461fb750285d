import Verif.MPEmp.Lemmas

/-!
# Lemmas on the sampled and the sparse variant
-/

set_option autoImplicit false

set_option linter.unusedSectionVars false

namespace HubToolbox.MPEmp

variable {K : Type} [Field K] [LinearOrder K] [IsStrictOrderedRing K]

theorem foldl_cell {α : Type*} {n s : ℕ} (idx : Fin s → Fin n) (v : α) (l : List (Fin s))
    (M : Fin n → Fin s → α) (a : Fin n) (b : Fin s) :
    l.foldl (fun (D : Fin n → Fin s → α) (j : Fin s) => fun a b => if a = idx j ∧ b = j then v else D a b) M a b
      = if a = idx b ∧ b ∈ l then v else M a b := by
  induction l generalizing M with
  | nil => simp
  | cons c l ih =>
    rw [List.foldl_cons, ih]
    by_cases h1 : a = idx b
    · by_cases h2 : b ∈ l
      · simp [h1, h2]
      · by_cases h3 : b = c
        · subst h3; simp [h1, h2]
        · simp [h1, h2, h3]
    · have : ¬ (a = idx c ∧ b = c) := by rintro ⟨rfl, rfl⟩; exact h1 rfl
      simp [h1, this]

theorem foldl_update {α : Type*} {n : ℕ} (f : Fin n → α) (l : List (Fin n)) (M : Fin n → α) (a : Fin n) :
    l.foldl (fun (M : Fin n → α) (i : Fin n) => Function.update M i (f i)) M a
      = if a ∈ l then f a else M a := by
  induction l generalizing M with
  | nil => simp
  | cons c l ih =>
    rw [List.foldl_cons, ih]
    by_cases h1 : a ∈ l
    · simp [h1]
    · by_cases h2 : a = c
      · subst h2; simp [h1]
      · simp [h1, h2]

/-- The input of the sampled variant with excluded self distances. -/
def excl {n s : ℕ} (metric : String) (D : Fin n → Fin s → XR K) (idx : Fin s → Fin n) (a : Fin n) (x : Fin s) :
    XR K := if a = idx x then excludeValue metric else D a x

/-- Closed form of the sampled variant. -/
theorem sampleCore_apply {n s : ℕ} (metric : String) (D : Fin n → Fin s → XR K) (idx : Fin s → Fin n)
    (rows : List (Fin n)) (i : Fin n) (j : Fin s) :
    sampleCore metric D idx rows i j =
      if i = idx j then .fin (selfValue metric)
      else if i ∈ rows then
        .fin (entry metric (excl metric D idx i) (excl metric D idx (idx j)) (D i j))
      else .nan := by
  have hD : (List.finRange s).foldl (fun (D : Fin n → Fin s → XR K) (j : Fin s) =>
      fun a b => if a = idx j ∧ b = j then excludeValue metric else D a b) D = excl metric D idx := by
    funext a b
    rw [foldl_cell]
    simp [excl]
  unfold sampleCore
  simp only [hD]
  rw [foldl_cell]
  by_cases h : i = idx j
  · simp [h]
  · rw [if_neg (by simp [h]), if_neg h]
    have := congrFun (foldl_update (fun i => fun j => (XR.fin (entry metric (excl metric D idx i)
      (excl metric D idx (idx j)) (excl metric D idx i j)) : XR K)) rows (fun _ _ => .nan) i) j
    rw [this]
    split
    · simp only [excl, if_neg h]
    · rfl

theorem mem_pairs {n : ℕ} (S : Fin n → Fin n → K) (i j : Fin n) :
    (i, j) ∈ pairs S ↔ S i j ≠ 0 ∧ i ≤ j := by
  simp [pairs, List.mem_filter]

theorem nodup_pairs {n : ℕ} (S : Fin n → Fin n → K) : (pairs S).Nodup :=
  ((List.nodup_finRange n).product (List.nodup_finRange n)).filter _

/-- Shared array after all workers are done. -/
theorem data_apply {n : ℕ} {order : List (Fin n × Fin n)} (minNnz : ℤ) (S : Fin n → Fin n → K)
    (ho : order.Perm (pairs S)) (i j : Fin n) :
    Sched.exec (fun _ : Fin n × Fin n => (.fin 0 : XR K))
      (order.map (fun p => (p, secDist minNnz S p.1 p.2))) (i, j)
      = if S i j ≠ 0 ∧ i ≤ j then secDist minNnz S i j else .fin 0 := by
  have hfst : (order.map (fun p => (p, secDist minNnz S p.1 p.2))).map Prod.fst = order := by
    rw [List.map_map]; exact List.map_id _
  by_cases h : S i j ≠ 0 ∧ i ≤ j
  · rw [if_pos h]
    apply Sched.exec_of_mem
    · rw [hfst]; exact ho.nodup_iff.2 (nodup_pairs S)
    · exact List.mem_map.2 ⟨(i, j), ho.mem_iff.2 ((mem_pairs S i j).2 h), rfl⟩
  · rw [if_neg h]
    apply Sched.exec_of_notMem
    rw [hfst]
    intro hc
    exact h ((mem_pairs S i j).1 (ho.mem_iff.1 hc))

theorem secDist_comm {n : ℕ} (minNnz : ℤ) (S : Fin n → Fin n → K) (hs : ∀ i j, S i j = S j i)
    (i j : Fin n) : secDist minNnz S i j = secDist minNnz S j i := by
  unfold secDist
  simp only [hs j i, add_comm, or_comm]

/-- Closed form of the sparse variant, for every schedule. -/
theorem sparse_apply {n : ℕ} {order : List (Fin n × Fin n)} (minNnz : ℤ) (S : Fin n → Fin n → K)
    (ho : order.Perm (pairs S)) (hs : ∀ i j, S i j = S j i) (i j : Fin n) :
    sparse order minNnz S i j =
      if i = j then .fin 1
      else if (nnz (S i) : ℤ) ≤ minNnz then .fin (S i j)
      else if S i j = 0 then .fin 0
      else secDist minNnz S i j := by
  unfold sparse Np.fillDiagonal
  simp only [Fin.val_inj]
  by_cases hij : i = j
  · simp [hij]
  rw [if_neg hij, if_neg hij]
  by_cases hn : (nnz (S i) : ℤ) ≤ minNnz
  · simp [hn]
  rw [if_neg hn, if_neg hn, data_apply minNnz S ho, data_apply minNnz S ho, hs j i]
  by_cases h0 : S i j = 0
  · simp [h0, XR.add]
  · rw [if_neg h0]
    rcases lt_or_gt_of_ne hij with h | h
    · rw [if_pos ⟨h0, h.le⟩, if_neg (by rintro ⟨-, h2⟩; exact absurd h (not_lt.2 h2))]
      cases secDist minNnz S i j <;> simp [XR.add]
    · rw [if_neg (by rintro ⟨-, h2⟩; exact absurd h (not_lt.2 h2)), if_pos ⟨h0, h.le⟩,
        secDist_comm minNnz S hs j i]
      cases secDist minNnz S i j <;> simp [XR.add]

/-- The worker's value as a count, for non-negative similarities. -/
theorem secDist_eq {n : ℕ} {minNnz : ℤ} {S : Fin n → Fin n → K} (hnn : ∀ i j, 0 ≤ S i j) {i j : Fin n}
    (hi : minNnz < nnz (S i)) (hj : minNnz < nnz (S j)) :
    secDist minNnz S i j =
      .fin (((Finset.univ.filter (fun x => S i x ≤ S i j ∧ S j x ≤ S i j)).card : K) / n) := by
  unfold secDist
  rw [if_neg (by push Not; exact ⟨hi, hj⟩)]
  congr 1
  have hn : 0 < n := Nat.pos_of_ne_zero (by rintro rfl; exact i.elim0)
  have hnK : (n : K) ≠ 0 := by exact_mod_cast hn.ne'
  have hcnt : nnz (fun x => suppress (S i j) (S i) x + suppress (S i j) (S j) x)
      + (Finset.univ.filter (fun x => S i x ≤ S i j ∧ S j x ≤ S i j)).card = n := by
    unfold nnz
    rw [Np.countTrue_eq_card]
    have : (Finset.univ.filter (fun x => decide (suppress (S i j) (S i) x + suppress (S i j) (S j) x ≠ 0) = true))
        = Finset.univ.filter (fun x => ¬ (S i x ≤ S i j ∧ S j x ≤ S i j)) := by
      refine Finset.filter_congr (fun x _ => ?_)
      rw [decide_eq_true_iff]
      unfold suppress
      have h0 := hnn i j
      have h1 := hnn i x
      have h2 := hnn j x
      by_cases a : S i x ≤ S i j <;> by_cases b : S j x ≤ S i j <;> simp [a, b]
      · exact (lt_of_le_of_lt h0 (not_le.1 b)).ne'
      · exact (lt_of_le_of_lt h0 (not_le.1 a)).ne'
      · have := lt_of_le_of_lt h0 (not_le.1 b); have := lt_of_le_of_lt h0 (not_le.1 a); positivity
    rw [this, add_comm, Finset.card_filter_add_card_filter_not]
    simp
  rw [eq_div_iff hnK, sub_mul, div_mul_cancel₀ _ hnK]
  have : ((nnz (fun x => suppress (S i j) (S i) x + suppress (S i j) (S j) x) : ℕ) : K)
      + ((Finset.univ.filter (fun x => S i x ≤ S i j ∧ S j x ≤ S i j)).card : K) = n := by
    exact_mod_cast hcnt
  linarith

end HubToolbox.MPEmp
