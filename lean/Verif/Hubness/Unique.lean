import Verif.Hubness.Lemmas
import Mathlib.Data.List.Sort
import Mathlib.Data.Finset.Dedup

/-! Uniqueness and transport of k-nearest-neighbour lists. -/

set_option autoImplicit false

namespace HubToolbox
namespace Spec

variable {α β : Type*} {m : ℕ}

/-- Without ties there is only one k-nearest-neighbour list. -/
theorem IsKnn.unique {cl : α → α → Prop} {d : Fin m → α} {k : ℕ} {L L' : List (Fin m)}
    (h : IsKnn cl d k L) (h' : IsKnn cl d k L')
    (anti : ∀ a b, cl (d a) (d b) → cl (d b) (d a) → a = b) : L = L' := by
  have hset : L.toFinset = L'.toFinset := by
    by_contra hne
    have hc : L.toFinset.card = L'.toFinset.card := by
      rw [List.toFinset_card_of_nodup h.distinct, List.toFinset_card_of_nodup h'.distinct,
        h.length, h'.length]
    have h1 : ∃ a ∈ L.toFinset, a ∉ L'.toFinset := by
      by_contra hcon
      push Not at hcon
      exact hne (Finset.eq_of_subset_of_card_le hcon hc.ge)
    have h2 : ∃ a ∈ L'.toFinset, a ∉ L.toFinset := by
      by_contra hcon
      push Not at hcon
      exact hne (Finset.eq_of_subset_of_card_le hcon hc.le).symm
    obtain ⟨a, ha, ha'⟩ := h1
    obtain ⟨b, hb, hb'⟩ := h2
    simp only [List.mem_toFinset] at ha ha' hb hb'
    have := anti a b (h.best a ha b hb') (h'.best b hb a ha')
    subst this
    exact ha' hb
  have hp : L.Perm L' := List.perm_of_nodup_nodup_toFinset_eq h.distinct h'.distinct hset
  exact hp.eq_of_pairwise (fun a b _ _ => anti a b) h.sorted h'.sorted

theorem IsKnn.congr {cl : α → α → Prop} {cl' : β → β → Prop} {d : Fin m → α} {d' : Fin m → β}
    {k : ℕ} {L : List (Fin m)} (h : IsKnn cl d k L)
    (hc : ∀ a b, cl (d a) (d b) → cl' (d' a) (d' b)) : IsKnn cl' d' k L where
  length := h.length
  distinct := h.distinct
  sorted := h.sorted.imp (fun {a b} => hc a b)
  best a ha b hb := hc a b (h.best a ha b hb)

/-- Renaming the columns. -/
theorem IsKnn.map {cl : α → α → Prop} {d : Fin m → α} {k : ℕ} {L : List (Fin m)}
    (h : IsKnn cl d k L) (π : Equiv.Perm (Fin m)) :
    IsKnn cl (fun j => d (π j)) k (L.map π.symm) where
  length := by simpa using h.length
  distinct := h.distinct.map π.symm.injective
  sorted := by
    rw [List.pairwise_map]
    simpa using h.sorted
  best a ha b hb := by
    obtain ⟨x, hx, rfl⟩ := List.mem_map.1 ha
    simp only [Equiv.apply_symm_apply]
    apply h.best x hx
    intro hc
    exact hb (List.mem_map.2 ⟨_, hc, by simp⟩)

theorem closer_anti {α : Type*} [PartialOrder α] {metric : String} {a b : α}
    (h : closer metric a b) (h' : closer metric b a) : a = b := by
  unfold closer at *
  split at h <;> simp_all
  · exact le_antisymm h h'
  · exact le_antisymm h' h

end Spec
end HubToolbox
