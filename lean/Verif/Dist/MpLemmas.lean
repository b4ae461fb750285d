import Verif.Dist.MpModel
import Verif.Dist.Spec
import Mathlib.Algebra.Order.Floor.Ring
import Mathlib.Algebra.BigOperators.Intervals
import Mathlib.Data.Nat.Find

/-!
# Lemmas about the bins of `mp_dissim`
-/

set_option autoImplicit false

namespace HubToolbox.Dist

open HubToolbox

/-- Edges which enclose the values `v` in `B` bins. -/
structure Good {n : ℕ} (E : Edges) (B : ℕ) (v : Fin n → ℝ) : Prop where
  pos : 0 < B
  bins : E.bins = B
  mono : ∀ a b, a ≤ b → b ≤ B → E.e a ≤ E.e b
  lo : ∀ j, E.e 0 ≤ v j
  hi : ∀ j, v j ≤ E.e B

open Classical in
/-- Number of edges not above `x`. -/
theorem count_edges (e : ℕ → ℝ) (B : ℕ) (hm : ∀ a b, a ≤ b → b ≤ B → e a ≤ e b) (x : ℝ) (b : ℕ) (hb : b ≤ B) :
    e b ≤ x ↔ b < ((Finset.range (B + 1)).filter (fun b => e b ≤ x)).card := by
  have hex : ∃ m, ¬ (m ≤ B ∧ e m ≤ x) := ⟨B + 1, fun h => by omega⟩
  have hS : (Finset.range (B + 1)).filter (fun b => e b ≤ x) = Finset.range (Nat.find hex) := by
    ext c
    simp only [Finset.mem_filter, Finset.mem_range]
    constructor
    · rintro ⟨h1, h2⟩
      by_contra hlt
      have hlt := not_lt.1 hlt
      have hsp := Nat.find_spec hex
      exact hsp ⟨by omega, (hm _ _ hlt (by omega)).trans h2⟩
    · intro h
      have := Nat.find_min hex h
      have h2 := not_not.1 this
      exact ⟨by omega, h2.2⟩
  rw [hS, Finset.card_range]
  constructor
  · intro h
    have : b ∈ (Finset.range (B + 1)).filter (fun b => e b ≤ x) := by simp [h]; omega
    rw [hS] at this
    simpa using this
  · intro h
    exact (not_not.1 (Nat.find_min hex h)).2

variable {n : ℕ} {E : Edges} {B : ℕ} {v : Fin n → ℝ}

theorem binOf_lt (h : 0 < B) (x : ℝ) : binOf E B x < B := by
  unfold binOf
  omega

theorem binOf_mono (E : Edges) (B : ℕ) : Monotone (binOf E B) := by
  classical
  intro x y hxy
  unfold binOf
  have : ((Finset.range (E.bins + 1)).filter (fun b => E.e b ≤ x)).card ≤
      ((Finset.range (E.bins + 1)).filter (fun b => E.e b ≤ y)).card := by
    apply Finset.card_le_card
    intro b hb
    simp only [Finset.mem_filter] at hb ⊢
    exact ⟨hb.1, hb.2.trans hxy⟩
  omega

/-- A value is counted in the bin computed for it. -/
theorem mem_bin (h : Good E B v) (j : Fin n) (b : ℕ) (hb : b < B) :
    (E.e b ≤ v j ∧ (v j < E.e (b + 1) ∨ (b + 1 = E.bins ∧ v j ≤ E.e (b + 1)))) ↔ binOf E B (v j) = b := by
  classical
  have hc := fun b hb => count_edges E.e B h.mono (v j) b hb
  unfold binOf
  rw [h.bins]
  set c := ((Finset.range (B + 1)).filter (fun b => E.e b ≤ v j)).card with hcdef
  have h0 := (hc 0 (by omega)).1 (h.lo j)
  have hcB : c ≤ B + 1 := by
    have := Finset.card_filter_le (Finset.range (B + 1)) (fun b => E.e b ≤ v j)
    rw [Finset.card_range] at this
    exact this
  have hb1 := hc b (by omega)
  have hb2 := hc (b + 1) (by omega)
  constructor
  · rintro ⟨h1, h2⟩
    have h3 := hb1.1 h1
    rcases h2 with h2 | ⟨h2, h4⟩
    · have : ¬ (b + 1 < c) := fun hh => absurd (hb2.2 hh) (not_le.2 h2)
      omega
    · omega
  · intro hbin
    refine ⟨hb1.2 (by omega), ?_⟩
    by_cases hlast : b + 1 = B
    · right
      exact ⟨hlast, by rw [hlast]; exact h.hi j⟩
    · left
      by_contra hlt
      have := hb2.1 (not_lt.1 hlt)
      omega

theorem histogram_eq (h : Good E B v) (b : ℕ) (hb : b < B) :
    histogram v E b = (Finset.univ.filter (fun j => binOf E B (v j) = b)).card := by
  classical
  unfold histogram
  congr 1
  ext j
  simp only [Finset.mem_filter, Finset.mem_univ, true_and]
  exact mem_bin h j b hb

theorem rUpper_eq (h : Good E B v) (b c : ℕ) (hbc : b ≤ c) (hc : c < B) :
    rUpper (histogram v E) b c = (Finset.univ.filter (fun j => b ≤ binOf E B (v j) ∧ binOf E B (v j) ≤ c)).card := by
  unfold rUpper
  rw [if_pos hbc]
  have h1 : ((List.range (c - b + 1)).map (fun t => histogram v E (b + t))).sum =
      ∑ t ∈ Finset.range (c - b + 1), histogram v E (b + t) := by
    rfl
  rw [h1]
  rw [Finset.card_eq_sum_card_fiberwise (f := fun j => binOf E B (v j)) (t := Finset.Ico b (b + (c - b + 1)))
    (by
      intro j hj
      simp only [Finset.coe_filter, Finset.mem_univ, true_and, Set.mem_setOf_eq] at hj
      simp only [Finset.coe_Ico, Set.mem_Ico]
      omega)]
  rw [Finset.sum_Ico_eq_sum_range]
  have h2 : b + (c - b + 1) - b = c - b + 1 := by omega
  rw [h2]
  refine Finset.sum_congr rfl fun t ht => ?_
  rw [Finset.mem_range] at ht
  rw [histogram_eq h (b + t) (by omega)]
  congr 1
  ext j
  simp only [Finset.mem_filter, Finset.mem_univ, true_and]
  omega

/-- The table of regions counts the objects in all bins from one to the other. -/
theorem rBins_eq (h : Good E B v) (b c : ℕ) (hb : b < B) (hc : c < B) :
    rBins (histogram v E) b c = Spec.regionCount (fun j => binOf E B (v j)) b c := by
  unfold rBins Spec.regionCount
  rcases lt_or_ge c b with hlt | hge
  · rw [if_pos hlt, rUpper_eq h c b hlt.le hb]
    unfold rUpper
    rw [if_neg (by omega), zero_add, min_eq_right hlt.le, max_eq_left hlt.le]
  · rw [if_neg (by omega), add_zero, rUpper_eq h b c hge hc, min_eq_left hge, max_eq_right hge]

theorem getD_elem {α : Type} (l : List α) (d : α) {i : ℕ} (h : i < l.length) : l.getD i d = l[i] := by
  simp [List.getD_eq_getElem?_getD, h]

/-! ### Both kinds of edges -/

theorem sorted_length (v : Fin n → ℝ) : (sorted v).length = n := by
  unfold sorted Np.sort
  rw [List.length_insertionSort, List.length_ofFn]

theorem sorted_mem (v : Fin n → ℝ) (x : ℝ) : x ∈ sorted v ↔ ∃ j, v j = x := by
  unfold sorted Np.sort
  rw [List.mem_insertionSort, List.mem_ofFn]

theorem sorted_le (v : Fin n → ℝ) (a b : ℕ) (hab : a ≤ b) (hb : b < n) : (sorted v).getD a 0 ≤ (sorted v).getD b 0 := by
  have hl := sorted_length v
  rw [getD_elem _ _ (by omega), getD_elem _ _ (by omega)]
  rcases Nat.lt_or_eq_of_le hab with h | rfl
  · have hp : (sorted v).Pairwise (· ≤ ·) := List.pairwise_insertionSort (· ≤ ·) (List.ofFn v)
    exact List.pairwise_iff_getElem.1 hp _ _ _ _ h
  · exact le_refl _

theorem sorted_bounds (v : Fin n → ℝ) (j : Fin n) : (sorted v).getD 0 0 ≤ v j ∧ v j ≤ (sorted v).getD (n - 1) 0 := by
  have hl := sorted_length v
  have hj := j.isLt
  obtain ⟨t, ht, he⟩ := List.mem_iff_getElem.1 ((sorted_mem v (v j)).2 ⟨j, rfl⟩)
  have he' : (sorted v).getD t 0 = v j := by rw [getD_elem _ _ ht, he]
  rw [← he']
  exact ⟨sorted_le v 0 t (by omega) (by omega), sorted_le v t (n - 1) (by omega) (by omega)⟩

theorem rangeEdges_good (v : Fin n → ℝ) (hB : 0 < B) (hn : 0 < n) : Good (rangeEdges v B) B v := by
  have hle : (sorted v).getD 0 0 ≤ (sorted v).getD (n - 1) 0 := sorted_le v 0 (n - 1) (by omega) (by omega)
  have hBr : (0 : ℝ) < B := by exact_mod_cast hB
  set lo := (sorted v).getD 0 0 with hlo
  set hi := (sorted v).getD (n - 1) 0 with hhi
  have hd : 0 ≤ (if lo = hi then hi + 1 / 2 else hi) - (if lo = hi then lo - 1 / 2 else lo) := by
    split_ifs with h
    · linarith
    · linarith
  refine ⟨hB, rfl, ?_, ?_, ?_⟩
  · intro a b hab _
    have : (a : ℝ) ≤ b := by exact_mod_cast hab
    change _ + (a : ℝ) * _ ≤ _ + (b : ℝ) * _
    gcongr
  · intro j
    have hb := (sorted_bounds v j).1
    change (if lo = hi then lo - 1 / 2 else lo) + ((0 : ℕ) : ℝ) * _ ≤ _
    rw [Nat.cast_zero, zero_mul, add_zero]
    split_ifs with h <;> linarith
  · intro j
    have hb := (sorted_bounds v j).2
    change _ ≤ (if lo = hi then lo - 1 / 2 else lo) + (B : ℝ) * (_ / (B : ℝ))
    rw [mul_div_cancel₀ _ hBr.ne']
    split_ifs with h <;> linarith

theorem kthList_lt {n step : ℕ} (hn : 0 < n) (t : ℕ) (ht : t ∈ kthList n step) : t < n := by
  unfold kthList at ht
  simp only at ht
  split_ifs at ht with h
  · simpa using (List.mem_filter.1 ht).1
  · rcases List.mem_append.1 ht with h | h
    · simpa using (List.mem_filter.1 h).1
    · have := List.mem_singleton.1 h
      omega

theorem filter_sorted (n step : ℕ) : ((List.range n).filter (fun t => decide (step ∣ t))).Pairwise (· < ·) :=
  List.pairwise_lt_range.filter _

theorem kthList_sorted {n step : ℕ} (hn : 0 < n) : (kthList n step).Pairwise (· < ·) := by
  unfold kthList
  simp only
  split_ifs with h
  · exact filter_sorted n step
  · refine List.pairwise_append.2 ⟨filter_sorted n step, by simp, ?_⟩
    intro a ha b hb
    have hb := List.mem_singleton.1 hb
    have han : a < n := by simpa using (List.mem_filter.1 ha).1
    subst hb
    rcases Nat.lt_or_ge a (n - 1) with h1 | h1
    · exact h1
    · exfalso
      apply h
      have hae : a = n - 1 := by omega
      subst hae
      have hlast : (List.range n).filter (fun t => decide (step ∣ t)) =
          (List.range (n - 1)).filter (fun t => decide (step ∣ t)) ++ [n - 1] := by
        have hd : decide (step ∣ n - 1) = true := (List.mem_filter.1 ha).2
        conv_lhs => rw [show n = n - 1 + 1 by omega]
        rw [List.range_succ, List.filter_append, List.filter_singleton]
        simp only [hd, cond_true]
      rw [hlast]
      simp

theorem kthList_head {n step : ℕ} (hn : 0 < n) : (kthList n step).getD 0 0 = 0 := by
  obtain ⟨m, rfl⟩ : ∃ m, n = m + 1 := ⟨n - 1, by omega⟩
  have : ∃ l, (List.range (m + 1)).filter (fun t => decide (step ∣ t)) = 0 :: l := by
    rw [List.range_succ_eq_map, List.filter_cons]
    simp
  obtain ⟨l, hl⟩ := this
  unfold kthList
  simp only [hl]
  split_ifs <;> rfl

theorem kthList_last {n step : ℕ} : (kthList n step).getLast? = some (n - 1) := by
  unfold kthList
  simp only
  split_ifs with h
  · exact h
  · simp

theorem kthList_length_pos {n step : ℕ} : 0 < (kthList n step).length := by
  rw [List.length_pos_iff]
  intro h
  have := kthList_last (n := n) (step := step)
  rw [h] at this
  simp at this

theorem massEdges_good {step : ℕ} (v : Fin n → ℝ) (hB : 0 < B) (hn : 0 < n) (hk : (kthList n step).length - 1 = B) :
    Good (massEdges v (kthList n step)) B v := by
  have hpos := kthList_length_pos (n := n) (step := step)
  have hlen : (kthList n step).length = B + 1 := by omega
  refine ⟨hB, hk, ?_, ?_, ?_⟩
  · intro a b hab hb
    change (sorted v).getD _ 0 ≤ (sorted v).getD _ 0
    have hb' : b < (kthList n step).length := by omega
    rw [getD_elem _ _ (show a < (kthList n step).length by omega), getD_elem (kthList n step) _ hb']
    refine sorted_le v _ _ ?_ (kthList_lt hn _ (List.getElem_mem _))
    rcases Nat.lt_or_eq_of_le hab with h | rfl
    · exact (List.pairwise_iff_getElem.1 (kthList_sorted (step := step) hn) _ _ _ _ h).le
    · exact le_refl _
  · intro j
    change (sorted v).getD ((kthList n step).getD 0 0) 0 ≤ _
    rw [kthList_head hn]
    exact (sorted_bounds v j).1
  · intro j
    change _ ≤ (sorted v).getD ((kthList n step).getD B 0) 0
    have : (kthList n step).getD B 0 = n - 1 := by
      have h := kthList_last (n := n) (step := step)
      rw [List.getLast?_eq_getElem?, hlen] at h
      simp only [Nat.add_sub_cancel] at h
      rw [List.getD_eq_getElem?_getD, h]
      rfl
    rw [this]
    exact (sorted_bounds v j).2

end HubToolbox.Dist
