import Verif.MPEmp.Model
import Verif.MPEmp.Spec
import Verif.Tac

set_option autoImplicit false

set_option linter.unusedSectionVars false

namespace HubToolbox

theorem Np.countTrue_eq_card {n : ℕ} (p : Fin n → Bool) :
    Np.countTrue p = (Finset.univ.filter (fun x => p x = true)).card := by
  unfold Np.countTrue
  rw [List.countP_eq_length_filter, ← List.toFinset_card_of_nodup]
  · congr 1
    ext x
    simp
  · exact (List.nodup_finRange n).filter _

namespace MPEmp

theorem foldl_setRowFrom {α : Type*} {n m : ℕ} (f : Fin n → Fin m → α) (lo : Fin n → ℕ)
    (l : List (Fin n)) (M : Fin n → Fin m → α) (a : Fin n) (b : Fin m) :
    l.foldl (fun (M : Fin n → Fin m → α) (i : Fin n) => Np.setRowFrom M i (lo i) (f i)) M a b
      = if a ∈ l ∧ lo a ≤ b.val then f a b else M a b := by
  induction l generalizing M with
  | nil => simp
  | cons x l ih =>
    rw [List.foldl_cons, ih]
    by_cases h : a ∈ l ∧ lo a ≤ b.val
    · simp [h]
    · rw [if_neg h]
      unfold Np.setRowFrom
      by_cases hx : a = x
      · subst hx
        by_cases hb : lo a ≤ b.val <;> simp [hb]
      · simp only [hx, false_and, if_false, List.mem_cons, false_or]
        rw [if_neg h]

theorem mem_take_finRange {n k : ℕ} (a : Fin n) : a ∈ (List.finRange n).take k ↔ a.val < k := by
  rw [List.mem_iff_getElem]
  constructor
  · rintro ⟨i, hi, rfl⟩
    simp at hi ⊢
    omega
  · intro h
    refine ⟨a.val, by simp; omega, by simp⟩

variable {K : Type} [Field K] [LinearOrder K]

/-- Closed form of the loop: entries are computed for `a < b` and mirrored. -/
theorem fullDense_apply {n : ℕ} (metric : String) (D : Fin n → Fin n → XR K) (i j : Fin n) :
    fullDense metric D i j =
      if i = j then selfValue metric
      else if i < j then
        entry metric (Np.fillDiagonal D (excludeValue metric) i)
          (Np.fillDiagonal D (excludeValue metric) j) (D j i)
      else
        entry metric (Np.fillDiagonal D (excludeValue metric) j)
          (Np.fillDiagonal D (excludeValue metric) i) (D i j) := by
  unfold fullDense
  simp only [Np.fillDiagonal, Np.addT, foldl_setRowFrom, mem_take_finRange]
  rcases lt_trichotomy i j with h | h | h
  · have h' : i.val < j.val := h
    have h1 : i.val ≠ j.val := by omega
    have h2 : i ≠ j := h.ne
    simp only [h1, h2, h, if_true, if_false]
    rw [if_pos (by omega), if_neg (by omega), if_neg (by omega)]
    simp
  · subst h; simp
  · have h' : j.val < i.val := h
    have h1 : i.val ≠ j.val := by omega
    have h2 : i ≠ j := h.ne'
    simp only [h1, h2, h.not_gt, if_false]
    rw [if_neg (by omega), if_pos (by omega)]
    simp

theorem fullDense_symm {n : ℕ} (metric : String) (D : Fin n → Fin n → XR K) (i j : Fin n) :
    fullDense metric D i j = fullDense metric D j i := by
  rw [fullDense_apply, fullDense_apply]
  rcases lt_trichotomy i j with h | h | h
  · simp [h, h.ne, h.ne', h.not_gt]
  · simp [h]
  · simp [h, h.ne, h.ne', h.not_gt]

/-- The set counted by the similarity branch of `entry`. -/
theorem entry_similarity {s : ℕ} (dI dJ : Fin s → XR K) (d : XR K) :
    entry "similarity" dI dJ d =
      ((Finset.univ.filter (fun x => XR.fle (dI x) d ∧ XR.fle (dJ x) d)).card : K) / s := by
  simp [entry, Np.countTrue_eq_card]

/-- The set counted by the distance branch of `entry`. -/
theorem entry_distance {s : ℕ} (dI dJ : Fin s → XR K) (d : XR K) :
    entry "distance" dI dJ d =
      1 - ((Finset.univ.filter (fun x => XR.flt d (dI x) ∧ XR.flt d (dJ x))).card : K) / s := by
  simp [entry, Np.countTrue_eq_card]

theorem entry_mem_unit [IsStrictOrderedRing K] {s : ℕ} (metric : String) (dI dJ : Fin s → XR K)
    (d : XR K) : 0 ≤ entry metric dI dJ d ∧ entry metric dI dJ d ≤ 1 := by
  have key : ∀ p : Fin s → Bool, 0 ≤ ((Np.countTrue p : ℕ) : K) / s ∧ ((Np.countTrue p : ℕ) : K) / s ≤ 1 := by
    intro p
    have hle : Np.countTrue p ≤ s := by
      rw [Np.countTrue_eq_card]
      exact (Finset.card_le_univ _).trans (by simp)
    constructor
    · positivity
    · rcases Nat.eq_zero_or_pos s with h0 | h0
      · subst h0; simp
      · rw [div_le_one (by exact_mod_cast h0)]
        exact_mod_cast hle
  unfold entry
  split
  · exact key _
  · have := key (fun x => decide (XR.flt d (dI x)) && decide (XR.flt d (dJ x)))
    constructor <;> linarith [this.1, this.2]

theorem not_flt_ninf (d : XR K) : ¬ XR.flt d .ninf := by cases d <;> simp [XR.flt]

theorem not_fle_pinf {d : XR K} (h : d ≠ .pinf) : ¬ XR.fle .pinf d := by
  cases d <;> simp_all [XR.fle]

end MPEmp
end HubToolbox
