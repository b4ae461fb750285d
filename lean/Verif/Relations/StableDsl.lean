import Verif.Relations.Stable
import Verif.Relations.Diagonal
import Verif.Rounding.Dsl

/-!
# Experiments on DisSim Local in double precision (C294)
-/

set_option autoImplicit false

namespace HubToolbox.Relations

open HubToolbox

/-- Replacing the diagonals does not change experiments. -/
theorem same_offdiag {n : ℕ} {x y x' y' : Fin n → Fin n → XR ℝ} (hx : Spec.SameOffDiagonal x x') (hy : Spec.SameOffDiagonal y y')
    (h : Spec.SameExperiments x' y') : Spec.SameExperiments x y where
  hubness o o' rnd rnd' sched sched' sparse sparse' k nJobs nJobs' seed seed' shuffle shuffle' r r' h1 h2 := by
    rw [hubnessMat_offdiag hx] at h1
    rw [hubnessMat_offdiag hy] at h2
    exact h.hubness _ _ _ _ _ _ _ _ _ _ _ _ _ _ _ _ _ h1 h2
  score hn srt srt' o o' rnd rnd' labels ks hk := by
    obtain ⟨r, r', h1, h2, h3⟩ := h.score hn srt srt' o o' rnd rnd' labels ks hk
    exact ⟨r, r', by rw [C293_score hx, h1], by rw [C293_score hy, h2], h3⟩

open Rounding Ieee in
/-- **C294**: let the `k` nearest neighbours of each vector be nearer than the others by more than the rounding error of squared distances, and let the
exact DisSim Local values of each vector differ by more than twice the rounding error of DisSim Local. Then hubness and k-NN classification of
`dis_sim_local` in double precision are those of the exact secondary distances. -/
theorem C294 {n p k : ℕ} {X : Fin n → Fin p → ℝ} {A : ℝ} {L : VecLib ℝ} (hL : L.Near X) (o : ArgPart (XR ℝ)) (w : SNN.World ℝ) (h1 : 1 ≤ k) (hkn : k < n)
    (hk : k ≤ 2 ^ 40) (hp0 : 0 < p) (hp : p ≤ 2 ^ 40)
    (hA0 : 2 ^ (-400 : ℤ) ≤ A) (hA1 : A ≤ 2 ^ (400 : ℤ)) (hX : ∀ i f, |X i f| ≤ A) (hf : ∀ j f, double.round (X j f) = .fin (X j f))
    (N : Fin n → Finset (Fin n)) (hN : ∀ i, i ∉ N i ∧ (N i).card = k)
    (hgap : ∀ i, ∀ a ∈ N i, ∀ b, b ≠ i → b ∉ N i → Spec.sq (X i) (X a) + 16 * (p + 2) * 2 ^ (-53 : ℤ) * (p * A ^ 2) < Spec.sq (X i) (X b))
    (hval : ∀ i a b, a ≠ i → b ≠ i → a ≠ b →
      2 * ((52 * p + 20 * k + 100) * 2 ^ (-53 : ℤ) * (p * A ^ 2)) <
        |Spec.disSim (X i) (X a) (Spec.centroid (N i) X) (Spec.centroid (N a) X) -
          Spec.disSim (X i) (X b) (Spec.centroid (N i) X) (Spec.centroid (N b) X)|) (nJobs : ℤ) :
    ∃ M M' : Fin n → Fin n → XR ℝ, Cent.disSimLocal w X .float64 none k nJobs = .ok ⟨n, M⟩ ∧
      (double.rounding ℝ).disSimLocal o L X k = .ok M' ∧ Spec.SameExperiments M M' := by
  obtain ⟨M, M', e, e', -, hM⟩ := C291 hL o w h1 hkn hk hp0 hp hA0 hA1 hX hf N hN hgap nJobs
  choose v z hv hz hve hze using hM
  refine ⟨M, M', e, e', same_offdiag (x' := LS.toXR fun i j => if hij : i = j then 0 else v i j hij)
    (y' := LS.toXR fun i j => if hij : i = j then 0 else z i j hij) ?_ ?_ (gap_same ?_)⟩
  · intro i j hij
    rw [hv i j hij, LS.toXR, dif_neg hij]
  · intro i j hij
    rw [hz i j hij, LS.toXR, dif_neg hij]
  · intro i a b ha hb hab
    rw [dif_neg ha.symm, dif_neg hb.symm, dif_neg ha.symm, dif_neg hb.symm]
    have g := hval i a b ha hb hab
    rw [← hve i a ha.symm, ← hve i b hb.symm] at g
    have ea := abs_le.1 (hze i a ha.symm)
    have eb := abs_le.1 (hze i b hb.symm)
    rcases lt_abs.1 g with g | g
    · right; constructor
      · have : 0 ≤ |z i a ha.symm - v i a ha.symm| := abs_nonneg _
        linarith [hze i a ha.symm]
      · linarith [ea.1, eb.2]
    · left; constructor
      · have : 0 ≤ |z i a ha.symm - v i a ha.symm| := abs_nonneg _
        linarith [hze i a ha.symm]
      · linarith [ea.2, eb.1]

open Rounding Ieee in
/-- The hypotheses of C294 hold for two pairs of vectors and one neighbour. -/
example (o : ArgPart (XR ℝ)) (w : SNN.World ℝ) := C294 (intVecLib_near twoPairsZ (by decide)) o w (k := 1) (by norm_num) (by norm_num) (by norm_num)
  (by norm_num) (by norm_num) (A := 8) ((two_zpow_le (show (-400 : ℤ) ≤ 3 by norm_num)).trans_eq (by norm_num))
  (le_trans (by norm_num) (two_zpow_le (show (3 : ℤ) ≤ 400 by norm_num)))
  (fun i f => by have : |twoPairsZ i f| ≤ 8 := by revert i f; decide
                 exact_mod_cast this)
  (fun i f => Ieee.round_intCast double (show |twoPairsZ i f| ≤ 2 ^ 53 by revert i f; decide) (by decide))
  (fun i => {(![1, 0, 3, 2] : Fin 4 → Fin 4) i}) (by decide) (by
    intro i a ha b hb hbN
    have key : ∀ i : Fin 4, ∀ a ∈ ({(![1, 0, 3, 2] : Fin 4 → Fin 4) i} : Finset (Fin 4)), ∀ b, b ≠ i →
        b ∉ ({(![1, 0, 3, 2] : Fin 4 → Fin 4) i} : Finset (Fin 4)) →
        ∑ f, (twoPairsZ i f - twoPairsZ a f) ^ 2 + 1 ≤ ∑ f, (twoPairsZ i f - twoPairsZ b f) ^ 2 := by decide
    have h : ((∑ f, (twoPairsZ i f - twoPairsZ a f) ^ 2 + 1 : ℤ) : ℝ) ≤ ((∑ f, (twoPairsZ i f - twoPairsZ b f) ^ 2 : ℤ) : ℝ) :=
      Int.cast_le.2 (key i a ha b hb hbN)
    push_cast at h
    unfold Spec.sq
    refine lt_of_lt_of_le ?_ h
    norm_num) (by
    intro i a b ha hb hab
    have c : ∀ j : Fin 4, Spec.centroid ({j} : Finset (Fin 4)) (fun i f => (twoPairsZ i f : ℝ)) = fun f => (twoPairsZ j f : ℝ) := by
      intro j; funext f; simp [Spec.centroid]
    have key : ∀ i a b : Fin 4, a ≠ i → b ≠ i → a ≠ b →
        1 ≤ |(∑ f, (twoPairsZ i f - twoPairsZ a f) ^ 2 - ∑ f, (twoPairsZ i f - twoPairsZ ((![1, 0, 3, 2] : Fin 4 → Fin 4) i) f) ^ 2 -
            ∑ f, (twoPairsZ a f - twoPairsZ ((![1, 0, 3, 2] : Fin 4 → Fin 4) a) f) ^ 2) -
          (∑ f, (twoPairsZ i f - twoPairsZ b f) ^ 2 - ∑ f, (twoPairsZ i f - twoPairsZ ((![1, 0, 3, 2] : Fin 4 → Fin 4) i) f) ^ 2 -
            ∑ f, (twoPairsZ b f - twoPairsZ ((![1, 0, 3, 2] : Fin 4 → Fin 4) b) f) ^ 2)| := by decide
    have h := (Int.cast_le (R := ℝ)).2 (key i a b ha hb hab)
    push_cast at h
    rw [c, c, c]
    unfold Spec.disSim Spec.sq
    refine lt_of_lt_of_le ?_ h
    norm_num)

end HubToolbox.Relations
