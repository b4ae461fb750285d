import Verif.MPEmp.CsrModel
import Verif.MPEmp.SparseLemmas
import Mathlib.Data.List.GetD
import Mathlib.Tactic.Linarith
import Mathlib.Tactic.NormNum

/-!
# Sparse empirical Mutual Proximity and the way the matrix is stored
-/

set_option autoImplicit false

namespace HubToolbox.Spec

variable {K : Type} [Field K] [LinearOrder K]

/-- A csr matrix whose rows are stored in the order of the columns. -/
def SortedRows {n : ℕ} (rows : Fin n → List (Fin n × K)) : Prop := ∀ i, (rows i).Pairwise (fun a b => a.1 < b.1)

/-- The stored entries are those of the matrix `S`: each column occurs at most once in a row, stored values are the entries of the matrix, and
everything else is zero. -/
def Stores {n : ℕ} (rows : Fin n → List (Fin n × K)) (S : Fin n → Fin n → K) : Prop :=
  ∀ i, ((rows i).map Prod.fst).Nodup ∧ (∀ e ∈ rows i, S i e.1 = e.2) ∧ ∀ j, j ∉ (rows i).map Prod.fst → S i j = 0

/-- No explicit zeros. -/
def NoZeros {n : ℕ} (rows : Fin n → List (Fin n × K)) : Prop := ∀ i, ∀ e ∈ rows i, e.2 ≠ 0

end HubToolbox.Spec

namespace HubToolbox.MPEmp

open Spec

variable {K : Type} [Field K] [LinearOrder K]

theorem bisect_spec (l : List ℕ) (key : ℕ) (hl : l.Pairwise (· < ·)) :
    ∀ (fuel lo hi : ℕ), hi - lo ≤ fuel → lo ≤ hi → hi ≤ l.length →
      (∀ k, k < lo → l.getD k 0 < key) → (∀ k, hi ≤ k → k < l.length → ¬ l.getD k 0 < key) →
      (∀ k, k < bisect l key fuel lo hi → l.getD k 0 < key) ∧
        ∀ k, bisect l key fuel lo hi ≤ k → k < l.length → ¬ l.getD k 0 < key := by
  have hmono : ∀ a b, a ≤ b → b < l.length → l.getD a 0 ≤ l.getD b 0 := by
    intro a b hab hb
    rcases hab.eq_or_lt with rfl | h
    · exact le_rfl
    · rw [List.getD_eq_getElem _ _ hb, List.getD_eq_getElem _ _ (h.trans hb)]
      exact ((List.pairwise_iff_getElem.1 hl) a b (h.trans hb) hb h).le
  intro fuel
  induction fuel with
  | zero =>
    intro lo hi hf hlh hhi h1 h2
    have : lo = hi := by omega
    subst this
    exact ⟨h1, h2⟩
  | succ fuel ih =>
    intro lo hi hf hlh hhi h1 h2
    by_cases hlt : lo < hi
    · rw [bisect, if_pos hlt]
      have hm1 : lo + (hi - lo) / 2 < hi := by omega
      dsimp only
      by_cases hm : l.getD (lo + (hi - lo) / 2) 0 < key
      · rw [if_pos hm]
        refine ih _ _ (by omega) (by omega) hhi ?_ h2
        intro k hk
        exact lt_of_le_of_lt (hmono k _ (by omega) (by omega)) hm
      · rw [if_neg hm]
        refine ih _ _ (by omega) (by omega) (by omega) h1 ?_
        intro k hk hkl hc
        exact hm (lt_of_le_of_lt (hmono _ k hk hkl) hc)
    · rw [bisect, if_neg hlt]
      have : lo = hi := by omega
      subst this
      exact ⟨h1, h2⟩

/-- Binary search finds the position of a member of a sorted list. -/
theorem searchsorted_eq {l : List ℕ} (hl : l.Pairwise (· < ·)) {key : ℕ} (hk : key ∈ l) : searchsorted l key = l.idxOf key := by
  obtain ⟨h1, h2⟩ := bisect_spec l key hl (l.length + 1) 0 l.length (by omega) (by omega) le_rfl (by intro k hk; omega) (by intro k h1 h2; omega)
  have hidx := List.idxOf_lt_length_of_mem hk
  have hval : l.getD (l.idxOf key) 0 = key := by
    rw [List.getD_eq_getElem _ _ hidx]; exact List.getElem_idxOf hidx
  unfold searchsorted
  set r := bisect l key (l.length + 1) 0 l.length
  refine le_antisymm ?_ ?_
  · by_contra hc
    have := h1 (l.idxOf key) (by omega)
    omega
  · by_contra hc
    have h3 := h2 r le_rfl (by omega)
    have h4 : l.getD r 0 < l.getD (l.idxOf key) 0 := by
      rw [List.getD_eq_getElem _ _ hidx, List.getD_eq_getElem _ _ (by omega)]
      exact (List.pairwise_iff_getElem.1 hl) _ _ _ _ (by omega)
    omega

theorem indptr_succ {n : ℕ} (rows : Rows n K) (i : Fin n) : indptr rows (i.val + 1) = indptr rows i.val + (rows i).length := by
  unfold indptr
  rw [List.take_add_one, List.sum_append]
  congr 1
  simp [List.getElem?_ofFn]

theorem indptr_mono {n : ℕ} (rows : Rows n K) {a b : ℕ} (h : a ≤ b) : indptr rows a ≤ indptr rows b := by
  unfold indptr
  exact List.Sublist.sum_le_sum (List.take_sublist_take_left h) (by intro x _; exact Nat.zero_le _)

/-- Different entries have different places in the array of data. -/
theorem place_injective {n : ℕ} (rows : Rows n K) {i i' : Fin n} {p p' : ℕ} (hp : p < (rows i).length) (hp' : p' < (rows i').length)
    (h : indptr rows i + p = indptr rows i' + p') : i = i' ∧ p = p' := by
  have key : ∀ (a b : Fin n) (q q' : ℕ), q < (rows a).length → a < b → indptr rows a + q < indptr rows b + q' := by
    intro a b q q' hq hab
    have h1 := indptr_succ rows a
    have h2 := indptr_mono rows (show a.val + 1 ≤ b.val from hab)
    omega
  rcases lt_trichotomy i i' with hlt | rfl | hlt
  · have := key i i' p p' hp hlt; omega
  · exact ⟨rfl, by omega⟩
  · have := key i' i p' p hp' hlt; omega

theorem content_eq {n : ℕ} {rows : Rows n K} {S : Fin n → Fin n → K} (h : Stores rows S) (i j : Fin n) : content rows i j = S i j := by
  obtain ⟨hnd, hv, hz⟩ := h i
  unfold content
  by_cases hj : j ∈ (rows i).map Prod.fst
  · obtain ⟨e, he, rfl⟩ := List.mem_map.1 hj
    rw [hv e he]
    have : ∀ l : List (Fin n × K), (l.map Prod.fst).Nodup → e ∈ l → ((l.filter (fun e' => e'.1 = e.1)).map (fun e' => e'.2)).sum = e.2 := by
      intro l
      induction l with
      | nil => intro _ h; simp at h
      | cons a l ih =>
        intro hnd hm
        rw [List.map_cons, List.nodup_cons] at hnd
        rcases List.mem_cons.1 hm with rfl | hm
        · have h0 : l.filter (fun e' => e'.1 = e.1) = [] := by
            rw [List.filter_eq_nil_iff]
            intro x hx hc
            exact hnd.1 (List.mem_map.2 ⟨x, hx, by simpa using hc⟩)
          rw [List.filter_cons_of_pos (by simp), h0]
          simp
        · have hne : ¬ a.1 = e.1 := fun hc => hnd.1 (List.mem_map.2 ⟨e, hm, hc.symm⟩)
          rw [List.filter_cons_of_neg (by simpa using hne)]
          exact ih hnd.2 hm
    exact this _ hnd he
  · rw [hz j hj]
    have h0 : (rows i).filter (fun e' => e'.1 = j) = [] := by
      rw [List.filter_eq_nil_iff]
      intro x hx hc
      exact hj (List.mem_map.2 ⟨x, hx, by simpa using hc⟩)
    rw [h0]; simp

theorem mem_cols {n : ℕ} {rows : Rows n K} {i j : Fin n} : j.val ∈ cols rows i ↔ j ∈ (rows i).map Prod.fst := by
  unfold cols
  constructor
  · intro h
    obtain ⟨e, he, h2⟩ := List.mem_map.1 h
    exact List.mem_map.2 ⟨e, he, Fin.ext h2⟩
  · intro h
    obtain ⟨e, he, h2⟩ := List.mem_map.1 h
    exact List.mem_map.2 ⟨e, he, by rw [h2]⟩

theorem mem_cols_of_ne {n : ℕ} {rows : Rows n K} {S : Fin n → Fin n → K} (h : Stores rows S) {i j : Fin n} (hij : S i j ≠ 0) :
    j.val ∈ cols rows i := by
  rw [mem_cols]
  by_contra hc
  exact hij ((h i).2.2 j hc)

theorem cols_sorted {n : ℕ} {rows : Rows n K} (h : SortedRows rows) (i : Fin n) : (cols rows i).Pairwise (· < ·) := by
  unfold cols
  rw [List.pairwise_map]
  exact h i

theorem length_cols {n : ℕ} (rows : Rows n K) (i : Fin n) : (cols rows i).length = (rows i).length := by
  unfold cols; exact List.length_map _

theorem dataIdx_eq {n : ℕ} {rows : Rows n K} (h : SortedRows rows) {i j : Fin n} (hj : j.val ∈ cols rows i) :
    dataIdx rows i j = indptr rows i + (cols rows i).idxOf j.val := by
  unfold dataIdx
  rw [searchsorted_eq (cols_sorted h i) hj]

theorem dataIdx_lt {n : ℕ} {rows : Rows n K} (h : SortedRows rows) {i j : Fin n} (hj : j.val ∈ cols rows i) : dataIdx rows i j < indptr rows n := by
  rw [dataIdx_eq h hj]
  have h1 := List.idxOf_lt_length_of_mem hj
  rw [length_cols] at h1
  have h2 := indptr_succ rows i
  have h3 := indptr_mono rows (show i.val + 1 ≤ n from i.isLt)
  omega

theorem dataIdx_inj {n : ℕ} {rows : Rows n K} (h : SortedRows rows) {i j i' j' : Fin n} (hj : j.val ∈ cols rows i) (hj' : j'.val ∈ cols rows i')
    (he : dataIdx rows i j = indptr rows i' + (cols rows i').idxOf j'.val) : i = i' ∧ j = j' := by
  rw [dataIdx_eq h hj] at he
  have h1 := List.idxOf_lt_length_of_mem hj
  have h2 := List.idxOf_lt_length_of_mem hj'
  have h3 := h1
  have h4 := h2
  rw [length_cols] at h3 h4
  obtain ⟨rfl, hp⟩ := place_injective rows h3 h4 he
  refine ⟨rfl, Fin.ext ?_⟩
  have e1 := List.getElem_idxOf h1
  have e2 := List.getElem_idxOf h2
  rw [← e1, ← e2]
  simp only [hp]

/-- Numbers of stored entries of a row. -/
theorem length_eq_nnz {n : ℕ} {rows : Rows n K} {S : Fin n → Fin n → K} (h : Stores rows S) (h0 : NoZeros rows) (i : Fin n) :
    (rows i).length = nnz (S i) := by
  obtain ⟨hnd, hv, hz⟩ := h i
  unfold nnz
  rw [Np.countTrue_eq_card, ← List.length_map (f := Prod.fst), ← List.toFinset_card_of_nodup hnd]
  congr 1
  ext j
  rw [List.mem_toFinset, Finset.mem_filter, decide_eq_true_iff]
  constructor
  · intro hj
    obtain ⟨e, he, rfl⟩ := List.mem_map.1 hj
    exact ⟨Finset.mem_univ _, by rw [hv e he]; exact h0 i e he⟩
  · rintro ⟨-, hj⟩
    by_contra hc
    exact hj (hz j hc)

variable [IsStrictOrderedRing K]

/-- The entries stored for pairs of the matrix. -/
theorem csr_data {n : ℕ} {rows : Rows n K} {S : Fin n → Fin n → K} (h : Stores rows S) (hs : SortedRows rows) (minNnz : ℤ)
    {order : List (Fin n × Fin n)} (ho : order.Perm (pairs S)) (i j : Fin n) :
    withData rows (Sched.exec (fun _ : ℕ => (.fin 0 : XR K)) (order.map (fun p => (dataIdx rows p.1 p.2, secDistCsr minNnz rows p.1 p.2)))) i j
      = if S i j ≠ 0 ∧ i ≤ j then secDistCsr minNnz rows i j else .fin 0 := by
  have hmem : ∀ p ∈ order, p.2.val ∈ cols rows p.1 := by
    intro p hp
    exact mem_cols_of_ne h ((mem_pairs S p.1 p.2).1 (ho.mem_iff.1 hp)).1
  have hnd : ((order.map (fun p => (dataIdx rows p.1 p.2, secDistCsr minNnz rows p.1 p.2))).map Prod.fst).Nodup := by
    rw [List.map_map]
    refine List.Nodup.map_on ?_ (ho.nodup_iff.2 (nodup_pairs S))
    intro p hp q hq hpq
    have hpq' : dataIdx rows p.1 p.2 = dataIdx rows q.1 q.2 := hpq
    rw [dataIdx_eq hs (hmem q hq)] at hpq'
    obtain ⟨e1, e2⟩ := dataIdx_inj hs (hmem p hp) (hmem q hq) hpq'
    exact Prod.ext e1 e2
  unfold withData
  by_cases hij : S i j ≠ 0 ∧ i ≤ j
  · rw [if_pos hij, if_pos (mem_cols_of_ne h hij.1), ← dataIdx_eq hs (mem_cols_of_ne h hij.1)]
    exact Sched.exec_of_mem _ _ _ _ hnd (List.mem_map.2 ⟨(i, j), ho.mem_iff.2 ((mem_pairs S i j).2 hij), rfl⟩)
  · rw [if_neg hij]
    by_cases hj : j.val ∈ cols rows i
    · rw [if_pos hj]
      apply Sched.exec_of_notMem
      rw [List.map_map]
      intro hc
      obtain ⟨p, hp, hpe⟩ := List.mem_map.1 hc
      obtain ⟨e1, e2⟩ := dataIdx_inj hs (hmem p hp) hj hpe
      apply hij
      have := (mem_pairs S p.1 p.2).1 (ho.mem_iff.1 hp)
      rw [e1, e2] at this
      exact this
    · rw [if_neg hj]

theorem secDistCsr_comm {n : ℕ} (minNnz : ℤ) (rows : Rows n K) (hs : ∀ i j, content rows i j = content rows j i) (i j : Fin n) :
    secDistCsr minNnz rows i j = secDistCsr minNnz rows j i := by
  unfold secDistCsr
  simp only [hs j i, add_comm, or_comm]

/-- Closed form for rows stored in the order of the columns. -/
theorem csr_apply {n : ℕ} {rows : Rows n K} {S : Fin n → Fin n → K} (h : Stores rows S) (hs : SortedRows rows) (hsym : ∀ i j, S i j = S j i)
    (minNnz : ℤ) {order : List (Fin n × Fin n)} (ho : order.Perm (pairs S)) :
    ∃ R, sparseCsr order minNnz rows = .ok R ∧ ∀ i j, R i j =
      if i = j then .fin 1 else if ((rows i).length : ℤ) ≤ minNnz then .fin (S i j) else if S i j = 0 then .fin 0
      else secDistCsr minNnz rows i j := by
  unfold sparseCsr
  rw [if_pos]
  swap
  · rw [List.all_eq_true]
    intro p hp
    exact decide_eq_true (dataIdx_lt hs (mem_cols_of_ne h ((mem_pairs S p.1 p.2).1 (ho.mem_iff.1 hp)).1))
  refine ⟨_, rfl, ?_⟩
  intro i j
  unfold Np.fillDiagonal
  simp only [Fin.val_inj]
  by_cases hij : i = j
  · simp [hij]
  rw [if_neg hij, if_neg hij]
  by_cases hn : ((rows i).length : ℤ) ≤ minNnz
  · rw [if_pos hn, if_pos hn, content_eq h]
  rw [if_neg hn, if_neg hn, csr_data h hs minNnz ho, csr_data h hs minNnz ho, hsym j i]
  by_cases h0 : S i j = 0
  · simp [h0, XR.add]
  · rw [if_neg h0]
    rcases lt_or_gt_of_ne hij with h1 | h1
    · rw [if_pos ⟨h0, h1.le⟩, if_neg (by rintro ⟨-, h2⟩; exact absurd h1 (not_lt.2 h2))]
      cases secDistCsr minNnz rows i j <;> simp [XR.add]
    · rw [if_neg (by rintro ⟨-, h2⟩; exact absurd h1 (not_lt.2 h2)), if_pos ⟨h0, h1.le⟩,
        secDistCsr_comm minNnz rows (by intro a b; rw [content_eq h, content_eq h, hsym]) j i]
      cases secDistCsr minNnz rows i j <;> simp [XR.add]

theorem one_le_nnz {n : ℕ} {row : Fin n → K} {j : Fin n} (hj : row j ≠ 0) : 1 ≤ nnz row := by
  unfold nnz
  rw [Np.countTrue_eq_card]
  exact Finset.card_pos.2 ⟨j, Finset.mem_filter.2 ⟨Finset.mem_univ _, by simpa using hj⟩⟩

/-- **C261**, first part: if the entries of the rows are stored in the order of the columns, and either there are no explicit zeros or `min_nnz` is
not positive, the result is a function of the matrix alone, for every schedule. -/
theorem C261_partial {n : ℕ} {rows : Rows n K} {S : Fin n → Fin n → K} (h : Stores rows S) (hs : SortedRows rows) (hsym : ∀ i j, S i j = S j i)
    {minNnz : ℤ} (hz : NoZeros rows ∨ minNnz ≤ 0) {order order' : List (Fin n × Fin n)} (ho : order.Perm (pairs S)) (ho' : order'.Perm (pairs S)) :
    sparseCsr order minNnz rows = .ok (sparse order' minNnz S) := by
  obtain ⟨R, hR, hv⟩ := csr_apply h hs hsym minNnz ho
  rw [hR]
  congr 1
  funext i j
  rw [hv, sparse_apply minNnz S ho' hsym]
  have hcont : content rows = S := by funext a b; exact content_eq h a b
  by_cases hij : i = j
  · rw [if_pos hij, if_pos hij]
  rw [if_neg hij, if_neg hij]
  rcases hz with hz | hz
  · rw [length_eq_nnz h hz]
    unfold secDistCsr secDist
    rw [length_eq_nnz h hz, length_eq_nnz h hz, hcont]
  · by_cases h0 : S i j = 0
    · rw [if_pos h0, if_pos h0, h0]
      simp
    · have hi := one_le_nnz h0
      have hj := one_le_nnz (row := S j) (j := i) (by rw [hsym]; exact h0)
      have hli : 1 ≤ (rows i).length := by
        rw [← length_cols]; exact List.length_pos_of_mem (mem_cols_of_ne h h0)
      have hlj : 1 ≤ (rows j).length := by
        rw [← length_cols]; exact List.length_pos_of_mem (mem_cols_of_ne h (i := j) (j := i) (by rw [hsym]; exact h0))
      have a1 : ¬ ((rows i).length : ℤ) ≤ minNnz := by omega
      have a2 : ¬ (nnz (S i) : ℤ) ≤ minNnz := by omega
      have a3 : ¬ ((rows j).length : ℤ) ≤ minNnz := by omega
      have a4 : ¬ (nnz (S j) : ℤ) ≤ minNnz := by omega
      unfold secDistCsr secDist
      simp only [a1, a2, a3, a4, h0, if_false, or_self, hcont]

/-- **C261**: two ways to store the same matrix give the same result under the same conditions. -/
theorem C261_storage_partial {n : ℕ} {rows rows' : Rows n K} {S : Fin n → Fin n → K} (h : Stores rows S) (h' : Stores rows' S)
    (hs : SortedRows rows) (hs' : SortedRows rows') (hsym : ∀ i j, S i j = S j i) {order order' : List (Fin n × Fin n)}
    (ho : order.Perm (pairs S)) (ho' : order'.Perm (pairs S)) : sparseCsr order 0 rows = sparseCsr order' 0 rows' := by
  rw [C261_partial h hs hsym (Or.inr le_rfl) ho ho, C261_partial h' hs' hsym (Or.inr le_rfl) ho' ho]

/-! ### Counterexamples -/

/-- The matrix `[[1, 1/2], [1/2, 1]]`. -/
def exHalf : Fin 2 → Fin 2 → ℚ := ![![1, 1/2], ![1/2, 1]]

/-- Its first row is stored backwards. -/
def exUnsorted : Rows 2 ℚ := ![[(1, 1/2), (0, 1)], [(0, 1/2), (1, 1)]]

/-- Stored in order. -/
def exSorted : Rows 2 ℚ := ![[(0, 1), (1, 1/2)], [(0, 1/2), (1, 1)]]

/-- **C261 is violated** by unsorted indices: results are stored at the places of other pairs, and the similarity of the two objects comes out as one
instead of zero, for every schedule. -/
theorem C261_violated : Stores exUnsorted exHalf ∧ Stores exSorted exHalf ∧ ∀ order order' : List (Fin 2 × Fin 2), order.Perm (pairs exHalf) →
    order'.Perm (pairs exHalf) → ∃ R R', sparseCsr order 0 exUnsorted = .ok R ∧ sparseCsr order' 0 exSorted = .ok R' ∧
      R 0 1 = .fin 1 ∧ R' 0 1 = .fin 0 := by
  refine ⟨by unfold Stores; decide +kernel, by unfold Stores; decide +kernel, ?_⟩
  intro order order' ho ho'
  obtain ⟨R', hR', hv⟩ := csr_apply (rows := exSorted) (S := exHalf) (by unfold Stores; decide +kernel) (by unfold SortedRows; decide +kernel)
    (by decide +kernel) 0 ho'
  have hin : ∀ p ∈ order, dataIdx exUnsorted p.1 p.2 < indptr exUnsorted 2 := by
    intro p hp
    exact (show ∀ p ∈ pairs exHalf, dataIdx exUnsorted p.1 p.2 < indptr exUnsorted 2 by decide +kernel) p (ho.mem_iff.1 hp)
  have hex : Sched.exec (fun _ : ℕ => (.fin 0 : XR ℚ)) (order.map (fun p => (dataIdx exUnsorted p.1 p.2, secDistCsr 0 exUnsorted p.1 p.2)))
      = Sched.exec (fun _ : ℕ => (.fin 0 : XR ℚ))
        ((pairs exHalf).map (fun p => (dataIdx exUnsorted p.1 p.2, secDistCsr 0 exUnsorted p.1 p.2))) := by
    refine Sched.exec_perm _ ?_ (ho.map _)
    rw [List.map_map]
    exact ((ho.map _).nodup_iff).2 (by decide +kernel)
  have hrun : ∃ R, sparseCsr order 0 exUnsorted = .ok R ∧ R 0 1 = .fin 1 := by
    unfold sparseCsr
    rw [if_pos (List.all_eq_true.2 (fun p hp => decide_eq_true (hin p hp))), hex]
    exact ⟨_, rfl, by decide +kernel⟩
  obtain ⟨R, hR, h1⟩ := hrun
  exact ⟨R, R', hR, hR', h1, by rw [hv]; decide +kernel⟩

/-- A matrix with a pair of similarity zero. -/
def exThree : Fin 3 → Fin 3 → ℚ := ![![1, 1/2, 0], ![1/2, 1, 1/5], ![0, 1/5, 1]]

/-- Stored without explicit zeros. -/
def exThreeRows : Rows 3 ℚ := ![[(0, 1), (1, 1/2)], [(0, 1/2), (1, 1), (2, 1/5)], [(1, 1/5), (2, 1)]]

/-- Stored with an explicit zero. -/
def exThreeZero : Rows 3 ℚ := ![[(0, 1), (1, 1/2), (2, 0)], [(0, 1/2), (1, 1), (2, 1/5)], [(1, 1/5), (2, 1)]]

/-- **C261 is violated** by explicit zeros: with `min_nnz = 2` the row of the first object is kept or rescaled, depending on whether its
similarity zero is stored. -/
theorem C261_zeros_violated : Stores exThreeRows exThree ∧ Stores exThreeZero exThree ∧ SortedRows exThreeRows ∧ SortedRows exThreeZero ∧
    ∀ order order' : List (Fin 3 × Fin 3), order.Perm (pairs exThree) → order'.Perm (pairs exThree) →
    ∃ R R', sparseCsr order 2 exThreeRows = .ok R ∧ sparseCsr order' 2 exThreeZero = .ok R' ∧ R 0 1 = .fin (1/2) ∧ R' 0 1 = .fin (1/3) := by
  have h1 : Stores exThreeRows exThree := by unfold Stores; decide +kernel
  have h2 : Stores exThreeZero exThree := by unfold Stores; decide +kernel
  have s1 : SortedRows exThreeRows := by unfold SortedRows; decide +kernel
  have s2 : SortedRows exThreeZero := by unfold SortedRows; decide +kernel
  refine ⟨h1, h2, s1, s2, ?_⟩
  intro order order' ho ho'
  obtain ⟨R, hR, hv⟩ := csr_apply h1 s1 (by decide +kernel) 2 ho
  obtain ⟨R', hR', hv'⟩ := csr_apply h2 s2 (by decide +kernel) 2 ho'
  refine ⟨R, R', hR, hR', ?_, ?_⟩
  · rw [hv]; decide +kernel
  · rw [hv']; decide +kernel

/-! ### Non-vacuity -/

example : Stores exThreeZero exThree ∧ SortedRows exThreeZero ∧ ¬ NoZeros exThreeZero ∧ NoZeros exThreeRows ∧ ∀ i j, exThree i j = exThree j i := by
  refine ⟨by unfold Stores; decide +kernel, by unfold SortedRows; decide +kernel, by unfold NoZeros; decide +kernel, by unfold NoZeros; decide +kernel,
    by decide +kernel⟩

end HubToolbox.MPEmp
