import Verif.Np
import Mathlib.Data.List.Dedup
import Mathlib.Data.List.Sort
import Mathlib.Data.List.FinRange

/-!
# Complete sorts of numpy
-/

set_option autoImplicit false

namespace HubToolbox

namespace Np

variable {α : Type} [LinearOrder α]

/-- `np.sort`. -/
def sort (l : List α) : List α := l.insertionSort (· ≤ ·)

/-- `np.unique` (of arrays without nan): the different values in ascending order. -/
def unique (l : List α) : List α := sort l.dedup

/-- `np.argsort(l, kind='mergesort')`: the stable sort, i.e. positions ordered by value and then by position. -/
def argsortStable (l : List α) : List (Fin l.length) :=
  (List.finRange l.length).insertionSort
    (fun a b => l.get a < l.get b ∨ (l.get a = l.get b ∧ a ≤ b))


theorem sort_perm (l : List α) : (sort l).Perm l := List.perm_insertionSort _ _

theorem sort_pairwise (l : List α) : (sort l).Pairwise (· ≤ ·) :=
  List.pairwise_insertionSort (α := α) (r := (· ≤ ·)) l

theorem mem_unique {l : List α} {a : α} : a ∈ unique l ↔ a ∈ l := by
  unfold unique; rw [(sort_perm _).mem_iff, List.mem_dedup]

theorem nodup_unique (l : List α) : (unique l).Nodup := by
  unfold unique; rw [(sort_perm _).nodup_iff]; exact List.nodup_dedup l

theorem argsortStable_perm (l : List α) : (argsortStable l).Perm (List.finRange l.length) :=
  List.perm_insertionSort _ _

theorem argsortStable_pairwise (l : List α) :
    (argsortStable l).Pairwise (fun a b => l.get a < l.get b ∨ (l.get a = l.get b ∧ a ≤ b)) := by
  have : IsTrans (Fin l.length) (fun a b => l.get a < l.get b ∨ (l.get a = l.get b ∧ a ≤ b)) := ⟨by
    intro a b c h1 h2
    rcases h1 with h1 | ⟨h1, h1'⟩ <;> rcases h2 with h2 | ⟨h2, h2'⟩
    · exact Or.inl (h1.trans h2)
    · exact Or.inl (h2 ▸ h1)
    · exact Or.inl (h1 ▸ h2)
    · exact Or.inr ⟨h1.trans h2, h1'.trans h2'⟩⟩
  have : Std.Total (fun a b : Fin l.length => l.get a < l.get b ∨ (l.get a = l.get b ∧ a ≤ b)) := ⟨by
    intro a b
    rcases lt_trichotomy (l.get a) (l.get b) with h | h | h
    · exact Or.inl (Or.inl h)
    · rcases le_total a b with h' | h'
      · exact Or.inl (Or.inr ⟨h, h'⟩)
      · exact Or.inr (Or.inr ⟨h.symm, h'⟩)
    · exact Or.inr (Or.inl h)⟩
  exact List.pairwise_insertionSort _ _

end Np

/-- A complete stable sort which the kernel can evaluate. -/
def sortPerm {α : Type*} [LinearOrder α] {m : ℕ} (v : Fin m → α) : List (Fin m) :=
  (List.finRange m).insertionSort (fun a b => v a ≤ v b)

theorem sortPerm_perm {α : Type*} [LinearOrder α] {m : ℕ} (v : Fin m → α) :
    (sortPerm v).Perm (List.finRange m) := List.perm_insertionSort _ _

theorem sortPerm_length {α : Type*} [LinearOrder α] {m : ℕ} (v : Fin m → α) : (sortPerm v).length = m := by
  rw [(sortPerm_perm v).length_eq, List.length_finRange]

theorem sortPerm_sorted {α : Type*} [LinearOrder α] {m : ℕ} (v : Fin m → α) :
    (sortPerm v).Pairwise (fun a b => v a ≤ v b) := by
  have : IsTrans (Fin m) (fun a b => v a ≤ v b) := ⟨fun _ _ _ h h' => le_trans h h'⟩
  have : Std.Total (fun a b => v a ≤ v b) := ⟨fun a b => le_total (v a) (v b)⟩
  exact List.pairwise_insertionSort _ _

theorem sortPerm_mono {α : Type*} [LinearOrder α] {m : ℕ} (v : Fin m → α) (p q : Fin m) (h : p ≤ q) :
    v ((sortPerm v)[p.val]'(by rw [sortPerm_length]; exact p.isLt))
      ≤ v ((sortPerm v)[q.val]'(by rw [sortPerm_length]; exact q.isLt)) := by
  rcases eq_or_lt_of_le h with rfl | h
  · exact le_rfl
  · exact List.pairwise_iff_getElem.1 (sortPerm_sorted v) _ _ _ _ h

/-- The contract of `np.argpartition` is satisfied by a complete stable sort. -/
def ArgPart.ofInsertion (α : Type*) [LinearOrder α] : ArgPart α where
  run {m _} v _ :=
    { toFun := fun p => (sortPerm v)[p.val]'(by rw [sortPerm_length]; exact p.isLt)
      invFun := fun x => ⟨(sortPerm v).idxOf x, by
        have := List.idxOf_lt_length_iff.2 ((sortPerm_perm v).mem_iff.2 (List.mem_finRange x))
        rwa [sortPerm_length] at this⟩
      left_inv := by
        intro p
        apply Fin.ext
        exact ((sortPerm_perm v).nodup_iff.2 (List.nodup_finRange m)).idxOf_getElem _ _
      right_inv := by
        intro x
        simp }
  before v _ _ p h := sortPerm_mono v _ _ h
  after v _ _ p h := sortPerm_mono v _ _ h

end HubToolbox
