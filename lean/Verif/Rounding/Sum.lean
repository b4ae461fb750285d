import Verif.Rounding.Format
import Verif.LS.Lemmas

/-!
# Floating point sums in any order

`np.sum` adds pairwise, with several accumulators, depending on memory layout and vector instructions. The model is any
order: the values are the leaves of some binary tree, every inner node is one rounded addition.
-/

set_option autoImplicit false

namespace HubToolbox

/-- Order of the additions. -/
inductive SumTree (K : Type) where
  | leaf (a : XR K)
  | node (l r : SumTree K)

namespace SumTree
variable {K : Type}

/-- The summands. -/
def leaves : SumTree K → List (XR K)
  | leaf a => [a]
  | node l r => l.leaves ++ r.leaves

/-- The computed sum. -/
def eval [Field K] [LinearOrder K] (R : Rounding K) : SumTree K → XR K
  | leaf a => a
  | node l r => R.add (l.eval R) (r.eval R)

theorem leaves_pos (t : SumTree K) : 0 < t.leaves.length := by
  induction t with
  | leaf a => simp [leaves]
  | node l r hl hr => simp only [leaves, List.length_append]; omega

end SumTree

namespace Rounding
variable {K : Type} [Field K] [LinearOrder K]

/-- `s` is the sum of `l`, added in some order. -/
def Sums (R : Rounding K) (l : List (XR K)) (s : XR K) : Prop :=
  (l = [] ∧ s = .fin 0) ∨ ∃ t : SumTree K, t.leaves.Perm l ∧ s = t.eval R

theorem xadd_comm (a b : XR K) : XR.add a b = XR.add b a := by
  cases a <;> cases b <;> simp [XR.add, add_comm]

theorem add_comm' (R : Rounding K) (a b : XR K) : R.add a b = R.add b a := by
  unfold add; rw [xadd_comm]

/-- Adding from left to right is one of the orders. -/
theorem sums_foldl (R : Rounding K) (l : List (XR K)) (hl : ∀ a ∈ l, R.Float a) :
    R.Sums l (l.foldl R.add (.fin 0)) := by
  cases l with
  | nil => exact Or.inl ⟨rfl, rfl⟩
  | cons a l =>
    right
    have : ∀ (l : List (XR K)) (t : SumTree K), ∃ t' : SumTree K, t'.leaves = t.leaves ++ l ∧
        l.foldl R.add (t.eval R) = t'.eval R := by
      intro l
      induction l with
      | nil => intro t; exact ⟨t, by simp, rfl⟩
      | cons b l ih =>
        intro t
        obtain ⟨t', h1, h2⟩ := ih (.node t (.leaf b))
        exact ⟨t', by rw [h1]; simp [SumTree.leaves], h2⟩
    obtain ⟨t, h1, h2⟩ := this l (.leaf a)
    refine ⟨t, by rw [h1]; rfl, ?_⟩
    rw [← h2, List.foldl_cons]
    congr 1
    have : XR.add (.fin 0) a = a := by cases a <;> simp [XR.add]
    unfold add
    rw [this]
    exact hl a (by simp)

/-- Without rounding the order has no influence on sums of numbers. -/
theorem sums_exact {l : List K} {s : XR K} (h : (exact K).Sums (l.map .fin) s) : s = .fin l.sum := by
  rcases h with ⟨h, rfl⟩ | ⟨t, ht, rfl⟩
  · rw [List.map_eq_nil_iff] at h
    simp [h]
  · have key : ∀ t : SumTree K, ∀ l : List K, t.leaves = l.map .fin → t.eval (exact K) = .fin l.sum := by
      intro t
      induction t with
      | leaf a =>
        intro l h
        cases l with
        | nil => simp [SumTree.leaves] at h
        | cons b l =>
          simp only [SumTree.leaves, List.map_cons, List.cons.injEq] at h
          have : l = [] := by simpa using h.2.symm
          simp [SumTree.eval, h.1, this]
      | node t₁ t₂ h1 h2 =>
        intro l h
        simp only [SumTree.leaves] at h
        obtain ⟨l₁, l₂, rfl, e1, e2⟩ := List.map_eq_append_iff.1 h.symm
        have a := h1 l₁ e1.symm
        have b := h2 l₂ e2.symm
        simp only [SumTree.eval, a, b, exact_add, XR.add, List.sum_append]
    obtain ⟨l', hl', e⟩ : ∃ l' : List K, l'.Perm l ∧ t.leaves = l'.map .fin := by
      have hf : ∀ a ∈ t.leaves, ∃ x : K, a = .fin x := by
        intro a ha
        obtain ⟨x, _, rfl⟩ := List.mem_map.1 (ht.mem_iff.1 ha)
        exact ⟨x, rfl⟩
      have : ∃ l' : List K, t.leaves = l'.map .fin := by
        generalize t.leaves = m at hf
        clear ht
        induction m with
        | nil => exact ⟨[], rfl⟩
        | cons a m ih =>
          obtain ⟨x, rfl⟩ := hf a (by simp)
          obtain ⟨l', rfl⟩ := ih (fun a ha => hf a (by simp [ha]))
          exact ⟨x :: l', rfl⟩
      obtain ⟨l', e⟩ := this
      refine ⟨l', ?_, e⟩
      rw [e] at ht
      have hinj : Function.Injective (XR.fin : K → XR K) := fun _ _ h => XR.fin.inj h
      exact (List.map_perm_map_iff hinj).1 ht
    rw [key t l' e, hl'.sum_eq]

end Rounding

namespace Ieee
variable {K : Type} [Field K] [LinearOrder K] [FloorRing K] [IsStrictOrderedRing K] (F : Ieee)

/-- Multiples of a power of two by integers of at most `p` digits are floats. -/
theorem round_mul_two_pow {m e : ℕ} (hm : m ≤ 2 ^ F.p) (he : (F.p : ℤ) + e ≤ F.emax) :
    F.round ((m : K) * 2 ^ e) = .fin (m * 2 ^ e) := by
  have h := nearest_rep (K := K) F (m := m) (t := e) (by
    rw [abs_of_nonneg (by positivity)]; exact_mod_cast hm) (by have := F.emin_le; have := F.p_pos; omega)
  simp only [Int.cast_natCast, zpow_natCast] at h
  rw [round_of_lt] <;> rw [h]
  rw [abs_of_nonneg (by positivity)]
  have h1 : (m : K) * 2 ^ e ≤ 2 ^ ((F.p : ℤ) + e) := by
    rw [zpow_add₀ two_ne_zero, zpow_natCast, zpow_natCast]
    exact mul_le_mul_of_nonneg_right (by exact_mod_cast hm) (by positivity)
  exact h1.trans_lt (zpow_lt_zpow_right₀ one_lt_two (by omega))

/-- Rounded numbers stay below floats. -/
theorem round_le {x b : K} (h0 : 0 ≤ x) (h : x ≤ b) (hb : F.round b = .fin b) : ∃ y, F.round x = .fin y ∧ 0 ≤ y ∧ y ≤ b := by
  have l := (F.rounding K).mono _ _ h0
  have u := (F.rounding K).mono _ _ h
  rw [(F.rounding K).zero] at l
  change _ ≤ F.round x at l
  change F.round x ≤ F.round b at u
  rw [hb] at u
  cases hx : F.round x with
  | fin y => rw [hx] at l u; exact ⟨y, rfl, l, u⟩
  | ninf => rw [hx] at l; simp at l
  | pinf => rw [hx] at u; simp at u
  | nan => exact absurd hx ((F.rounding K).ne_nan x)

/-- The same for both signs. -/
theorem round_abs_le {x b : K} (h : |x| ≤ b) (hb : F.round b = .fin b) : ∃ y, F.round x = .fin y ∧ |y| ≤ b := by
  rw [abs_le] at h
  have l := (F.rounding K).mono _ _ h.1
  have u := (F.rounding K).mono _ _ h.2
  rw [(F.rounding K).neg] at l
  change XR.neg (F.round b) ≤ F.round x at l
  change F.round x ≤ F.round b at u
  rw [hb] at u l
  cases hx : F.round x with
  | fin y => rw [hx] at l u; exact ⟨y, rfl, abs_le.2 ⟨l, u⟩⟩
  | ninf => rw [hx] at l; simp [XR.neg] at l
  | pinf => rw [hx] at u; simp at u
  | nan => exact absurd hx ((F.rounding K).ne_nan x)

/-- Sums in any order of numbers up to `2 ^ e`. -/
theorem sum_abs_le {e : ℕ} {l : List (XR K)} {s : XR K} (h : (F.rounding K).Sums l s) (hl : l.length ≤ 2 ^ F.p)
    (he : (F.p : ℤ) + e ≤ F.emax) (hb : ∀ a ∈ l, ∃ x, a = .fin x ∧ |x| ≤ (2 : K) ^ e) :
    ∃ y, s = .fin y ∧ |y| ≤ (l.length : K) * 2 ^ e := by
  rcases h with ⟨rfl, rfl⟩ | ⟨t, ht, rfl⟩
  · exact ⟨0, rfl, by simp⟩
  · rw [← ht.length_eq] at hl ⊢
    replace hb : ∀ a ∈ t.leaves, ∃ x, a = .fin x ∧ |x| ≤ (2 : K) ^ e := fun a ha => hb a (ht.mem_iff.1 ha)
    clear ht
    induction t with
    | leaf a =>
      obtain ⟨x, rfl, hx⟩ := hb a (by simp [SumTree.leaves])
      exact ⟨x, rfl, by simpa [SumTree.leaves] using hx⟩
    | node t₁ t₂ h1 h2 =>
      simp only [SumTree.leaves, List.length_append] at hl ⊢
      obtain ⟨x, hx, bx⟩ := h1 (by omega) (fun a ha => hb a (by simp [SumTree.leaves, ha]))
      obtain ⟨y, hy, bY⟩ := h2 (by omega) (fun a ha => hb a (by simp [SumTree.leaves, ha]))
      simp only [SumTree.eval, hx, hy]
      refine round_abs_le F (x := x + y) ?_ (round_mul_two_pow F hl he)
      refine (abs_add_le x y).trans ?_
      push_cast
      linarith

/-- Sums in any order of non-negative numbers up to `2 ^ e`. -/
theorem sum_nonneg_le {e : ℕ} {l : List (XR K)} {s : XR K} (h : (F.rounding K).Sums l s) (hl : l.length ≤ 2 ^ F.p)
    (he : (F.p : ℤ) + e ≤ F.emax) (hb : ∀ a ∈ l, ∃ x, a = .fin x ∧ 0 ≤ x ∧ x ≤ (2 : K) ^ e) :
    ∃ y, s = .fin y ∧ 0 ≤ y ∧ y ≤ (l.length : K) * 2 ^ e := by
  rcases h with ⟨rfl, rfl⟩ | ⟨t, ht, rfl⟩
  · exact ⟨0, rfl, le_rfl, by simp⟩
  · rw [← ht.length_eq] at hl ⊢
    replace hb : ∀ a ∈ t.leaves, ∃ x, a = .fin x ∧ 0 ≤ x ∧ x ≤ (2 : K) ^ e := fun a ha => hb a (ht.mem_iff.1 ha)
    clear ht
    induction t with
    | leaf a =>
      obtain ⟨x, rfl, h0, hx⟩ := hb a (by simp [SumTree.leaves])
      exact ⟨x, rfl, h0, by simpa [SumTree.leaves] using hx⟩
    | node t₁ t₂ h1 h2 =>
      simp only [SumTree.leaves, List.length_append] at hl ⊢
      obtain ⟨x, hx, x0, bx⟩ := h1 (by omega) (fun a ha => hb a (by simp [SumTree.leaves, ha]))
      obtain ⟨y, hy, y0, bY⟩ := h2 (by omega) (fun a ha => hb a (by simp [SumTree.leaves, ha]))
      simp only [SumTree.eval, hx, hy]
      refine round_le F (x := x + y) (by linarith) ?_ (round_mul_two_pow F hl he)
      push_cast
      linarith

/-- Multiples of a power of two by integers of at most `p` digits are floats. -/
theorem round_mul_zpow {m : ℕ} {t : ℤ} (hm : m ≤ 2 ^ F.p) (ht : F.emin ≤ t + (F.p - 1)) (he : (F.p : ℤ) + t ≤ F.emax) :
    F.round ((m : K) * 2 ^ t) = .fin (m * 2 ^ t) := by
  have h := nearest_rep (K := K) F (m := m) (t := t) (by
    rw [abs_of_nonneg (by positivity)]; exact_mod_cast hm) ht
  simp only [Int.cast_natCast] at h
  rw [round_of_lt] <;> rw [h]
  rw [abs_of_nonneg (by positivity)]
  have h1 : (m : K) * 2 ^ t ≤ 2 ^ ((F.p : ℤ) + t) := by
    rw [zpow_add₀ two_ne_zero, zpow_natCast]
    exact mul_le_mul_of_nonneg_right (by exact_mod_cast hm) (by positivity)
  exact h1.trans_lt (zpow_lt_zpow_right₀ one_lt_two (by omega))

/-- Sums of equal numbers with few digits are exact in any order. -/
theorem sum_replicate' {m n : ℕ} {t : ℤ} {s : XR K} (hs : (F.rounding K).Sums (List.replicate n (.fin ((m : K) * 2 ^ t))) s)
    (hm : n * m ≤ 2 ^ F.p) (ht : F.emin ≤ t + (F.p - 1)) (he : (F.p : ℤ) + t ≤ F.emax) : s = .fin (n * m * 2 ^ t) := by
  rcases hs with ⟨h, rfl⟩ | ⟨T, hT, rfl⟩
  · have : n = 0 := by simpa using h
    simp [this]
  · have hl := hT.length_eq
    rw [List.length_replicate] at hl
    have hb : ∀ a ∈ T.leaves, a = .fin ((m : K) * 2 ^ t) := fun a ha => List.eq_of_mem_replicate (hT.mem_iff.1 ha)
    clear hT
    subst hl
    induction T with
    | leaf a =>
      rw [SumTree.eval, hb a (by simp [SumTree.leaves])]
      simp [SumTree.leaves]
    | node t₁ t₂ h1 h2 =>
      simp only [SumTree.leaves, List.length_append] at hm ⊢
      rw [SumTree.eval, h1 (fun a ha => hb a (by simp [SumTree.leaves, ha])) ((Nat.mul_le_mul_right _ (by omega)).trans hm),
        h2 (fun a ha => hb a (by simp [SumTree.leaves, ha])) ((Nat.mul_le_mul_right _ (by omega)).trans hm)]
      have := round_mul_zpow (K := K) F hm ht he
      change F.round _ = _
      push_cast at this ⊢
      rw [← this]
      congr 1
      ring

end Ieee

end HubToolbox
