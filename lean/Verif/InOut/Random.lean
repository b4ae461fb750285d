import Verif.InOut.Model
import Mathlib.Algebra.Order.Field.Basic
import Mathlib.Data.Fintype.Prod
import Mathlib.Tactic.Linarith
import Mathlib.Tactic.FieldSimp
import Mathlib.Tactic.NormNum

/-!
# Random sparse similarity matrices (C160, C161)
-/

set_option autoImplicit false

namespace HubToolbox.InOut

variable {K : Type} [Field K] [LinearOrder K] [IsStrictOrderedRing K]

theorem at_nonneg {n : ℕ} (R : Draw K n) (i j : Fin n) : 0 ≤ R.at i j := by
  unfold Draw.at
  split_ifs
  · exact R.nonneg i j
  · exact le_rfl

theorem at_zero {n : ℕ} (R : Draw K n) {i j : Fin n} (h : (i, j) ∉ R.cells) : R.at i j = 0 := by
  unfold Draw.at
  rw [if_neg h]

theorem le_maxEntry {n : ℕ} (h : 0 < n) (S : Fin n → Fin n → K) (i j : Fin n) : S i j ≤ maxEntry h S := by
  unfold maxEntry
  exact Finset.le_sup' (fun p : Fin n × Fin n => S p.1 p.2) (Finset.mem_univ (i, j))

/-- **C160**: unless every drawn value is exactly zero, the random matrix is a similarity matrix: symmetric, with entries between 0 and 1 and
ones on the diagonal; off the diagonal exactly the drawn cells with a positive value, and their mirror images, are not zero. -/
theorem C160_similarity {n : ℕ} (hn : 0 < n) (R : Draw K n) (hR : R.cells = ∅ ∨ ∃ p ∈ R.cells, R.val p.1 p.2 ≠ 0) :
    ∃ M : Fin n → Fin n → K, randomSparse R = .ok (fun i j => .fin (M i j)) ∧ (∀ i j, M i j = M j i) ∧
      (∀ i j, 0 ≤ M i j ∧ M i j ≤ 1) ∧ (∀ i, M i i = 1) ∧
      ∀ i j, i ≠ j → (M i j ≠ 0 ↔ ((i, j) ∈ R.cells ∧ R.val i j ≠ 0) ∨ ((j, i) ∈ R.cells ∧ R.val j i ≠ 0)) := by
  set S : Fin n → Fin n → K := fun i j => R.at i j + R.at j i with hS
  set mx := maxEntry hn S with hmx
  have hS0 : ∀ i j, 0 ≤ S i j := fun i j => add_nonneg (at_nonneg R i j) (at_nonneg R j i)
  have hle : ∀ i j, S i j ≤ mx := le_maxEntry hn S
  have hmx0 : 0 ≤ mx := (hS0 ⟨0, hn⟩ ⟨0, hn⟩).trans (hle _ _)
  have hpos : R.cells = ∅ ∨ 0 < mx := by
    rcases hR with h | ⟨p, hp, hv⟩
    · exact Or.inl h
    · right
      have h1 : 0 < R.at p.1 p.2 := by
        unfold Draw.at
        rw [if_pos hp]
        exact lt_of_le_of_ne (R.nonneg _ _) (Ne.symm hv)
      have h2 := hle p.1 p.2
      have h3 := at_nonneg R p.2 p.1
      simp only [hS] at h2
      linarith
  have hstored : ∀ i j, ¬((i, j) ∈ R.cells ∨ (j, i) ∈ R.cells) → S i j = 0 := by
    intro i j h
    push Not at h
    simp only [hS, at_zero R h.1, at_zero R h.2, add_zero]
  have hS1 : ∀ i j, (if (i, j) ∈ R.cells ∨ (j, i) ∈ R.cells then
      XR.mul (.fin (S i j)) (XR.div (.fin 1) (.fin mx)) else (.fin 0 : XR K)) = .fin (S i j / mx) := by
    intro i j
    split_ifs with h
    · have : mx ≠ 0 := by
        rcases hpos with h' | h'
        · rw [h'] at h; simp at h
        · exact h'.ne'
      simp only [XR.div, if_neg this, XR.mul]
      rw [mul_one_div]
    · rw [hstored i j h, zero_div]
  refine ⟨fun i j => if i = j then 1 else S i j / mx, ?_, ?_, ?_, ?_, ?_⟩
  · unfold randomSparse
    rw [dif_pos hn]
    have hS1' : ∀ i j, (if (i, j) ∈ R.cells ∨ (j, i) ∈ R.cells then
      XR.mul (.fin (R.at i j + R.at j i)) (XR.div (.fin 1) (.fin (maxEntry hn (fun i j => R.at i j + R.at j i)))) else (.fin 0 : XR K))
        = .fin (S i j / mx) := hS1
    simp only [hS1']
    congr 1
    funext i j
    by_cases hij : i = j
    · subst hij
      simp [XR.sub, XR.add, XR.neg]
    · simp [hij]
  · intro i j
    by_cases hij : i = j
    · subst hij; rfl
    · simp only [if_neg hij, if_neg (Ne.symm hij), hS, add_comm]
  · intro i j
    by_cases hij : i = j
    · simp [hij]
    · simp only [if_neg hij]
      exact ⟨div_nonneg (hS0 i j) hmx0, div_le_one_of_le₀ (hle i j) hmx0⟩
  · intro i; simp
  · intro i j hij
    simp only [if_neg hij]
    have hat : ∀ i j, 0 < R.at i j ↔ (i, j) ∈ R.cells ∧ R.val i j ≠ 0 := by
      intro i j
      unfold Draw.at
      split_ifs with h
      · simp only [h, true_and]
        exact ⟨fun h => h.ne', fun h => lt_of_le_of_ne (R.nonneg i j) (Ne.symm h)⟩
      · simp [h]
    rw [← hat, ← hat]
    constructor
    · intro h
      by_contra hc
      push Not at hc
      have h1 := le_antisymm hc.1 (at_nonneg R i j)
      have h2 := le_antisymm hc.2 (at_nonneg R j i)
      exact h (by simp only [hS, h1, h2, add_zero, zero_div])
    · intro h
      have hs : 0 < S i j := by
        have h1 := at_nonneg R i j
        have h2 := at_nonneg R j i
        simp only [hS]
        rcases h with h | h <;> linarith
      exact (div_pos hs (hs.trans_le (hle i j))).ne'

/-- **C160**, the exception: if the random numbers are all zero, the stored entries become `nan`. -/
theorem C160_zero_draw {n : ℕ} (hn : 0 < n) (R : Draw K n) (h0 : ∀ p ∈ R.cells, R.val p.1 p.2 = 0) :
    ∃ M, randomSparse R = .ok M ∧ ∀ i j, (i, j) ∈ R.cells → M i j = .nan ∧ M j i = .nan := by
  have hat : ∀ i j, R.at i j = 0 := by
    intro i j
    unfold Draw.at
    split_ifs with h
    · exact h0 _ h
    · rfl
  have hmx : maxEntry hn (fun _ _ => (0 : K)) = 0 := by
    unfold maxEntry
    exact Finset.sup'_const _ 0
  have hnan : XR.mul (.fin (0 : K)) (XR.div (.fin 1) (.fin 0)) = .nan := by simp [XR.div, XR.mul, XR.infMul]
  have heq : randomSparse R = .ok (fun i j => if (i, j) ∈ R.cells ∨ (j, i) ∈ R.cells then .nan else if i = j then .fin 1 else .fin 0) := by
    unfold randomSparse
    rw [dif_pos hn]
    simp only [hat, add_zero, hmx, hnan]
    congr 1
    funext i j
    by_cases h : i = j
    · subst h
      by_cases hc : (i, i) ∈ R.cells
      · simp [hc, XR.sub, XR.add]
      · simp [hc, XR.sub, XR.add, XR.neg]
    · simp [h]
  refine ⟨_, heq, fun i j hij => ?_⟩
  simp [hij]

/-- **C160**: a matrix without rows is rejected. -/
theorem C160_empty (R : Draw K 0) : randomSparse R = .error .valueError := by
  unfold randomSparse
  rw [dif_neg (by omega)]

/-- Number of entries which are not zero. -/
def nnz {n : ℕ} (M : Fin n → Fin n → XR K) : ℕ :=
  (Finset.univ.filter (fun p : Fin n × Fin n => M p.1 p.2 ≠ .fin 0)).card

/-- **C161**, the part which holds: the `k` drawn cells (with positive values) lead to at least `k` and at most `2 k + n` non-zero
entries; twice the number is reached if no cell is drawn together with its mirror image, and none on the diagonal. -/
theorem C161_density_partial {n : ℕ} (hn : 0 < n) (R : Draw K n) (hpos : ∀ p ∈ R.cells, R.val p.1 p.2 ≠ 0)
    (M : Fin n → Fin n → XR K) (hM : randomSparse R = .ok M) :
    R.cells.card ≤ nnz M ∧ nnz M ≤ 2 * R.cells.card + n ∧
      ((∀ p ∈ R.cells, (p.2, p.1) ∉ R.cells) → nnz M = 2 * R.cells.card + n) := by
  have hR : R.cells = ∅ ∨ ∃ p ∈ R.cells, R.val p.1 p.2 ≠ 0 := by
    rcases Finset.eq_empty_or_nonempty R.cells with h | ⟨p, hp⟩
    · exact Or.inl h
    · exact Or.inr ⟨p, hp, hpos p hp⟩
  obtain ⟨V, hV, -, -, hd, ho⟩ := C160_similarity hn R hR
  have : M = fun i j => .fin (V i j) := by
    rw [hV] at hM
    exact (Except.ok.inj hM).symm
  subst this
  set D : Finset (Fin n × Fin n) := Finset.univ.filter (fun p => p.1 = p.2) with hD
  have hDcard : D.card = n := by
    have : D = Finset.univ.image (fun i : Fin n => (i, i)) := by
      ext ⟨a, b⟩
      simp only [hD, Finset.mem_filter, Finset.mem_univ, true_and, Finset.mem_image, Prod.mk.injEq]
      constructor
      · rintro rfl; exact ⟨a, rfl, rfl⟩
      · rintro ⟨c, rfl, rfl⟩; rfl
    rw [this, Finset.card_image_of_injective _ (fun a b h => (Prod.mk.inj h).1), Finset.card_univ, Fintype.card_fin]
  set T : Finset (Fin n × Fin n) := R.cells.image Prod.swap with hT
  have hTcard : T.card = R.cells.card := Finset.card_image_of_injective _ Prod.swap_injective
  have hset : (Finset.univ.filter (fun p : Fin n × Fin n => (XR.fin (V p.1 p.2) : XR K) ≠ .fin 0)) = (R.cells ∪ T) ∪ D := by
    ext ⟨a, b⟩
    simp only [Finset.mem_filter, Finset.mem_univ, true_and, Finset.mem_union, ne_eq, XR.fin.injEq, hT, Finset.mem_image, Prod.exists,
      Prod.swap_prod_mk, Prod.mk.injEq, hD]
    by_cases hab : a = b
    · subst hab
      simp [hd]
    · have h1 := ho a b hab
      have h2 : (∃ x y, (x, y) ∈ R.cells ∧ y = a ∧ x = b) ↔ (b, a) ∈ R.cells := by
        constructor
        · rintro ⟨x, y, h, rfl, rfl⟩; exact h
        · intro h; exact ⟨b, a, h, rfl, rfl⟩
      rw [h2]
      simp only [hab, or_false]
      have e1 : ((a, b) ∈ R.cells ∧ R.val a b ≠ 0) ↔ (a, b) ∈ R.cells := ⟨fun h => h.1, fun h => ⟨h, hpos _ h⟩⟩
      have e2 : ((b, a) ∈ R.cells ∧ R.val b a ≠ 0) ↔ (b, a) ∈ R.cells := ⟨fun h => h.1, fun h => ⟨h, hpos _ h⟩⟩
      rw [e1, e2] at h1
      exact h1
  unfold nnz
  rw [hset]
  refine ⟨?_, ?_, ?_⟩
  · exact Finset.card_le_card (fun p hp => by simp [hp])
  · have h1 := Finset.card_union_le (R.cells ∪ T) D
    have h2 := Finset.card_union_le R.cells T
    omega
  · intro hno
    rw [Finset.card_union_of_disjoint, Finset.card_union_of_disjoint]
    · omega
    · rw [Finset.disjoint_left]
      intro p hp hpT
      rw [hT, Finset.mem_image] at hpT
      obtain ⟨q, hq, rfl⟩ := hpT
      exact hno q hq hp
    · rw [Finset.disjoint_left]
      intro p hp hpD
      simp only [hD, Finset.mem_filter, Finset.mem_univ, true_and] at hpD
      rw [Finset.mem_union] at hp
      have hself : p ∉ R.cells := by
        intro h
        apply hno p h
        have : (p.2, p.1) = p := by ext <;> simp [hpD]
        rw [this]
        exact h
      rcases hp with h | h
      · exact hself h
      · rw [hT, Finset.mem_image] at h
        obtain ⟨q, hq, rfl⟩ := h
        apply hself
        have : q.swap = q := by
          obtain ⟨a, b⟩ := q
          simp only [Prod.fst_swap, Prod.snd_swap] at hpD
          simp [hpD]
        rw [this]
        exact hq

/-- **C161 is violated**: when all cells are drawn (`density=1`), the density of the result is 1 as well. -/
theorem C161_density_violated {n : ℕ} (hn : 0 < n) (R : Draw K n) (hall : R.cells = Finset.univ) (hpos : ∀ i j, R.val i j ≠ 0)
    (M : Fin n → Fin n → XR K) (hM : randomSparse R = .ok M) : nnz M = n * n := by
  obtain ⟨h1, -, -⟩ := C161_density_partial hn R (fun p _ => hpos p.1 p.2) M hM
  apply le_antisymm
  · unfold nnz
    refine (Finset.card_le_univ _).trans ?_
    rw [Fintype.card_prod, Fintype.card_fin]
  · rw [hall, Finset.card_univ, Fintype.card_prod, Fintype.card_fin] at h1
    exact h1

/-- A draw of two of nine cells. -/
def exampleDraw : Draw ℚ 3 where
  cells := {(0, 1), (2, 2)}
  val := fun _ _ => 1 / 2
  nonneg := by intro _ _; norm_num
  lt_one := by intro _ _; norm_num

-- C160, C161: a similarity matrix with a non-trivial entry off the diagonal
example : ∃ M : Fin 3 → Fin 3 → ℚ, randomSparse exampleDraw = .ok (fun i j => .fin (M i j)) ∧ M 1 0 = 1 / 2 ∧ M 2 2 = 1 ∧ M 0 2 = 0 := by
  refine ⟨fun i j => if i = j then 1 else if i.val + j.val = 1 then 1 / 2 else 0, ?_, by decide +kernel, by decide +kernel,
    by decide +kernel⟩
  unfold randomSparse
  rw [dif_pos (by norm_num)]
  refine congrArg Except.ok ?_
  funext i j
  revert i j
  decide +kernel

end HubToolbox.InOut
