import Verif.Relations.Duplicates
import Verif.MPPar.Real

/-!
# C256: parametric Mutual Proximity of an object stored twice
-/

set_option autoImplicit false

namespace HubToolbox.Relations

open Spec

theorem _root_.HubToolbox.Spec.Twins.nonneg {n : ℕ} {x : Fin n → Fin n → ℝ} {p q : Fin n} (h : Twins x p q) (i j : Fin n) : 0 ≤ x i j := by
  by_cases hij : i = j
  · rw [hij, h.self]
  · by_cases h1 : i = p ∧ j = q
    · rw [h1.1, h1.2, h.zero]
    · by_cases h3 : i = q ∧ j = p
      · rw [h3.1, h3.2, h.symm, h.zero]
      · exact (h.pos i j hij h1 h3).le

/-- With a third object all means are positive. -/
theorem _root_.HubToolbox.Spec.Twins.mean_pos {n : ℕ} {x : Fin n → Fin n → ℝ} {p q : Fin n} (h : Twins x p q) (hn : 3 ≤ n) (i : Fin n) :
    0 < meanOver ((training n none).erase i) (fun c => x c i) := by
  have hT : training n none = Finset.univ := by simp [training]
  have hcard : ((training n none).erase i).card = n - 1 := by
    rw [hT, Finset.card_erase_of_mem (Finset.mem_univ i), Finset.card_univ, Fintype.card_fin]
  refine div_pos (Finset.sum_pos' (fun c _ => h.nonneg c i) ?_) (by rw [hcard]; exact_mod_cast (by omega : 0 < n - 1))
  obtain ⟨c, hc⟩ : ∃ c : Fin n, c ∉ ({i, p, q} : Finset (Fin n)) ∨ (c ≠ i ∧ i ≠ p ∧ i ≠ q) := by
    by_cases hi : i ≠ p ∧ i ≠ q
    · exact ⟨p, Or.inr ⟨Ne.symm hi.1, hi.1, hi.2⟩⟩
    · have hsub : ({i, p, q} : Finset (Fin n)) ⊆ {p, q} := by
        intro c hc
        simp only [Finset.mem_insert, Finset.mem_singleton] at hc ⊢
        rcases hc with rfl | hc
        · by_contra hno
          push Not at hno
          exact hi hno
        · exact hc
      have : ({i, p, q} : Finset (Fin n)).card < (Finset.univ : Finset (Fin n)).card := by
        rw [Finset.card_univ, Fintype.card_fin]
        exact lt_of_le_of_lt (Finset.card_le_card hsub) (lt_of_le_of_lt Finset.card_le_two (by omega))
      obtain ⟨c, -, hc⟩ := Finset.exists_mem_notMem_of_card_lt_card this
      exact ⟨c, Or.inl hc⟩
  have hci : c ≠ i := by
    rcases hc with hc | hc
    · exact fun e => hc (by simp [e])
    · exact hc.1
  refine ⟨c, by rw [hT]; exact Finset.mem_erase.2 ⟨hci, Finset.mem_univ _⟩, h.pos c i hci ?_ ?_⟩
  · rintro ⟨e1, e2⟩
    rcases hc with hc | hc
    · exact hc (by simp [e1])
    · exact hc.2.2 e2
  · rintro ⟨e1, e2⟩
    rcases hc with hc | hc
    · exact hc (by simp [e1])
    · exact hc.2.1 e2

/-- **C256** (Gamma distributions): the two copies have distance zero, and the same distance to every other object. -/
theorem C256_gammai_partial (F : MPPar.Dists) {n : ℕ} (hn : 3 ≤ n) (x : Fin n → Fin n → ℝ) (p q : Fin n) (h : Twins x p q) (mn : ℤ) :
    ∃ M : Fin n → Fin n → ℝ, MPPar.gammai F (.mat false n n x) "distance" mn none = .ok ⟨n, fun i j => .fin (M i j)⟩ ∧
      M p q = 0 ∧ ∀ c, c ≠ p → c ≠ q → M p c = M q c := by
  have hT : training n none = Finset.univ := by simp [training]
  have h2 : ∀ j : Fin n, 2 ≤ ((training n none).erase j).card := fun j => by
    rw [hT, Finset.card_erase_of_mem (Finset.mem_univ j), Finset.card_univ, Fintype.card_fin]; omega
  have hf := MPPar.gammai_eq F x "distance" (Or.inr rfl) mn none h2 (h.mean_pos hn)
  obtain ⟨-, G, -, -, hG, hG'⟩ := MPPar.C93_relabel F x h.symm (Equiv.swap p q) "distance" (Or.inr rfl) mn none none (fun i => by simp [training])
  rw [h.swap, hG] at hG'
  have e1 := Except.ok.inj (hG.symm.trans hf)
  have e2 := Except.ok.inj hG'
  simp only [Sigma.mk.injEq, heq_eq_eq, true_and] at e1 e2
  refine ⟨_, hf, ?_, fun c hp hq => ?_⟩
  · have hz : ∀ i j : Fin n, x j i = 0 → gammaProb F.gamma ((training n none).erase i) (fun c => x c i) (x j i) = 0 := by
      intro i j hij
      unfold gammaProb
      rw [hij, max_self, zero_div]
      exact F.gamma_zero _ (div_pos (pow_pos (h.mean_pos hn i) 2) (MPPar.guard_pos (MPPar.sampleVariance_nonneg _ _ (h2 i))))
    have hqp : x q p = 0 := by rw [h.symm]; exact h.zero
    unfold MPPar.gamM
    rw [if_neg h.ne]
    have a := hz p q hqp
    have b := hz q p h.zero
    rw [h.symm q p] at a
    rw [h.symm p q] at b
    rw [a, b]
    simp [mutualProximity]
  · have := congrFun (congrFun e2 p) c
    rw [Equiv.swap_apply_left, Equiv.swap_apply_of_ne_of_ne hp hq, e1] at this
    exact XR.fin.inj this

/-- **C256** (normal distributions, violated): the two copies never have distance zero. They have the same distance to every other object. -/
theorem C256_gaussi_violated {n : ℕ} (x : Fin n → Fin n → ℝ) (p q : Fin n) (h : Twins x p q) (mn : ℤ) :
    ∃ M : Fin n → Fin n → ℝ, MPPar.gaussi MPPar.scipy (.mat false n n x) "distance" 0 mn none none = .ok ⟨n, n, fun i j => .fin (M i j)⟩ ∧
      0 < M p q ∧ ∀ c, c ≠ p → c ≠ q → M p c = M q c := by
  have hT : training n none = Finset.univ := by simp [training]
  have hne : ∀ j : Fin n, ((training n none).erase j).Nonempty := fun j => by
    rw [hT]
    by_cases hj : j = p
    · exact ⟨q, Finset.mem_erase.2 ⟨fun e => h.ne (by rw [e, hj]), Finset.mem_univ _⟩⟩
    · exact ⟨p, Finset.mem_erase.2 ⟨Ne.symm hj, Finset.mem_univ _⟩⟩
  have hf := MPPar.gaussi_eq MPPar.scipy x "distance" (Or.inr rfl) mn none hne
  obtain ⟨G, -, hG, hG', -⟩ := MPPar.C93_relabel MPPar.scipy x h.symm (Equiv.swap p q) "distance" (Or.inr rfl) mn none none
    (fun i => by simp [training])
  rw [h.swap, hG] at hG'
  have e1 := Except.ok.inj (hG.symm.trans hf)
  have e2 := Except.ok.inj hG'
  simp only [Sigma.mk.injEq, heq_eq_eq, true_and] at e1 e2
  refine ⟨_, hf, ?_, fun c hp hq => ?_⟩
  · unfold MPPar.gaussM
    rw [if_neg h.ne]
    have hpos : ∀ y : ℝ, 0 < MPPar.scipy.phi y ∧ MPPar.scipy.phi y < 1 := fun y => ⟨Prob.phi_pos y, Prob.phi_lt_one y⟩
    unfold mutualProximity normalProb
    rw [if_neg (by decide)]
    have key : ∀ y z : ℝ, 0 < 1 - (1 - MPPar.scipy.phi y) * (1 - MPPar.scipy.phi z) := by
      intro y z
      nlinarith [(hpos y).1, (hpos y).2, (hpos z).1, (hpos z).2]
    exact key _ _
  · have := congrFun (congrFun e2 p) c
    rw [Equiv.swap_apply_left, Equiv.swap_apply_of_ne_of_ne hp hq, e1] at this
    exact XR.fin.inj this

/-! ### Non-vacuity -/

example (F : MPPar.Dists) := C256_gammai_partial F (by norm_num) _ 0 1 (twins4_twins (K := ℝ)) 30

example := C256_gaussi_violated _ 0 1 (twins4_twins (K := ℝ)) 30

end HubToolbox.Relations
