import Verif.Hubness.Spec
import Verif.Tac

/-!
# Specification of nearest neighbours among candidates and of inequality indices

Nothing here mentions the model of the code.
-/

set_option autoImplicit false

namespace HubToolbox.Spec

/-- `L` lists `k` different candidates, nearest first, and no unlisted candidate is strictly nearer than a
listed one. -/
structure IsKnnAmong {α : Type*} [LE α] {m : ℕ} (cand : Fin m → Prop) (d : Fin m → α) (k : ℕ)
    (L : List (Fin m)) : Prop where
  length : L.length = k
  distinct : L.Nodup
  cands : ∀ a ∈ L, cand a
  sorted : L.Pairwise (fun a b => d a ≤ d b)
  best : ∀ a ∈ L, ∀ b, cand b → b ∉ L → d a ≤ d b

/-- Without ties between candidates there is only one list. -/
theorem IsKnnAmong.unique {α : Type*} [PartialOrder α] {m : ℕ} {cand : Fin m → Prop} {d : Fin m → α}
    {k : ℕ} {L L' : List (Fin m)} (h : IsKnnAmong cand d k L) (h' : IsKnnAmong cand d k L')
    (inj : ∀ a b, cand a → cand b → d a = d b → a = b) : L = L' := by
  have hset : L.toFinset = L'.toFinset := by
    by_contra hne
    have hc : L.toFinset.card = L'.toFinset.card := by
      rw [List.toFinset_card_of_nodup h.distinct, List.toFinset_card_of_nodup h'.distinct,
        h.length, h'.length]
    have h1 : ∃ a ∈ L.toFinset, a ∉ L'.toFinset := by
      by_contra hcon
      push Not at hcon
      exact hne (Finset.eq_of_subset_of_card_le hcon hc.ge)
    have h2 : ∃ a ∈ L'.toFinset, a ∉ L.toFinset := by
      by_contra hcon
      push Not at hcon
      exact hne (Finset.eq_of_subset_of_card_le hcon hc.le).symm
    obtain ⟨a, ha, ha'⟩ := h1
    obtain ⟨b, hb, hb'⟩ := h2
    simp only [List.mem_toFinset] at ha ha' hb hb'
    have := inj a b (h.cands a ha) (h'.cands b hb)
      (le_antisymm (h.best a ha b (h'.cands b hb) hb') (h'.best b hb a (h.cands a ha) ha'))
    subst this
    exact ha' hb
  have hp : L.Perm L' := List.perm_of_nodup_nodup_toFinset_eq h.distinct h'.distinct hset
  exact hp.eq_of_pairwise (fun a b ha hb h1 h2 => inj a b (h.cands a ha) (h'.cands b hb)
    (le_antisymm h1 h2)) h.sorted h'.sorted

/-- Gini coefficient: mean absolute difference of all ordered pairs over twice the mean. -/
def giniCoefficient {F : Type*} [Field F] [LinearOrder F] {m : ℕ} (x : Fin m → F) : F :=
  ((∑ i, ∑ j, |x i - x j|) / (m : F) ^ 2) / (2 * ((∑ i, x i) / m))

/-- Hoover (Robin Hood) index: half the relative mean deviation. -/
def hooverIndex {F : Type*} [Field F] [LinearOrder F] {m : ℕ} (x : Fin m → F) : F :=
  (∑ i, |x i - (∑ j, x j) / m|) / (2 * ∑ i, x i)

end HubToolbox.Spec
